/-
The joint run of the all-but-one random OT.
-/
import Verif.Proofs.ROT

namespace DVO.ROT
open GGM Net
variable {T : Type} [Scalar T]

theorem nodeVal_congr {aes : Cipher} {a : Nat} (ha : 0 < a) {k k' : Nat → Block} (h : ∀ j, j < a → k j = k' j)
    (seed : Block) : ∀ l i, nodeVal aes a k seed l i = nodeVal aes a k' seed l i := by
  intro l
  induction l with
  | zero => intro i; rfl
  | succ l ih =>
    intro i
    simp only [nodeVal]
    rw [ih, h _ (Nat.mod_lt _ ha)]

/-- The two keys drawn by the sender. -/
def keys2 (key : Nat → Block) : List Block := (List.range 2).map key

theorem keys2_length (key : Nat → Block) : (keys2 key).length = 2 := by simp [keys2]

theorem nodeVal_keys2 (aes : Cipher) (key : Nat → Block) (seed : Block) (l i : Nat) :
    nodeVal aes 2 (keyFn (keys2 key)) seed l i = nodeVal aes 2 key seed l i := by
  apply nodeVal_congr (by omega)
  intro j hj
  simp [keyFn, keys2, hj]

/-- The sender's element `k` of entry `i` (of size `n`). -/
def leafVal (T : Type) [Scalar T] (aes : Cipher) (fl : Nat → Nat → Nat) (key seed : Nat → Block) (i n k : Nat) : T :=
  Scalar.ofU128 (nodeVal aes 2 key (seed i) (fl n 2) k)

def senderOut (T : Type) [Scalar T] (aes : Cipher) (fl : Nat → Nat → Nat) (key seed : Nat → Block)
    (ns : List Nat) : List (List T) :=
  ns.mapIdx (fun i n => (List.range n).map (leafVal T aes fl key seed i n))

def receiverOut (T : Type) [Scalar T] (aes : Cipher) (fl : Nat → Nat → Nat) (key seed : Nat → Block)
    (ns ms : List Nat) : List (List T) :=
  ns.mapIdx (fun i n => (List.range n).map (fun k =>
    if k = ms[i]?.getD 0 then Scalar.ofU128 0 else leafVal T aes fl key seed i n k))

def senderView (T : Type) (aes : Cipher) (fl : Nat → Nat → Nat) (c : Chans) (key seed : Nat → Block)
    (ns : List Nat) : List (Event (Msg T)) :=
  let ms := (msgRows aes fl (keys2 key) seed ns).flatten
  (if ms.length > 0 then [.otSent c.rot ms] else []) ++ [.sent c.rot (.blocks (keys2 key))]

def receiverView (T : Type) (aes : Cipher) (fl : Nat → Nat → Nat) (c : Chans) (key seed : Nat → Block)
    (ns ms : List Nat) : List (Event (Msg T)) :=
  let cs := (csRows fl ns ms).flatten
  (if cs.length > 0 then [.otRcvd c.rot cs (otResult (msgRows aes fl (keys2 key) seed ns).flatten cs)] else []) ++
    [.rcvd c.rot (.blocks (keys2 key))]

theorem indicesOk_of {ns ms : List Nat} (h : IdxOk ns ms) :
    indicesOk ns (ms.map (fun m : Nat => (m : Int))) = true := by
  unfold indicesOk
  rw [List.all_eq_true]
  rintro ⟨n, i⟩ hmem
  obtain ⟨k, hk, hk2⟩ := List.mem_iff_getElem.1 hmem
  rw [List.length_zip] at hk
  simp only [List.length_map] at hk
  rw [List.getElem_zip] at hk2
  simp only [List.getElem_map, Prod.mk.injEq] at hk2
  have h1 : ns[k]? = some n := by rw [List.getElem?_eq_getElem (by omega), hk2.1]
  have h2 := h.2 k n (ms[k]'(by omega)) h1 (by rw [List.getElem?_eq_getElem])
  have h3 := hk2.2
  by_cases hn : n = 0
  · subst hn; simp; omega
  · have := h2 (by omega)
    simp; omega

theorem senderUnpack (aes : Cipher) {fl : Nat → Nat → Nat} (key seed : Nat → Block) {So : List (List T)}
    (hg : ∀ n ∈ So.map List.length, GoodSize fl n) :
    unpackAll (fullTrees aes fl (keys2 key) seed (So.map List.length)) So =
      .ok (senderOut T aes fl key seed (So.map List.length)) := by
  rw [unpackAll_eq (F := fun i => ((So[i]?).map (fun o => (List.range o.length).map
    (leafVal T aes fl key seed i o.length))).getD [])]
  · congr 1
    apply List.ext_getElem?
    intro i
    simp only [List.getElem?_mapIdx, senderOut, List.getElem?_map, Option.map_map]
    cases ho : So[i]? with
    | none => rfl
    | some o =>
      simp only [Option.map_some, Option.getD_some, Function.comp]
      by_cases hz : o.length = 0
      · simp [List.eq_nil_of_length_eq_zero hz]
      · rw [if_neg hz]
  · intro i o ho hz
    have hmem : o.length ∈ So.map List.length := by
      rw [List.mem_map]; exact ⟨o, List.mem_iff_getElem?.2 ⟨i, ho⟩, rfl⟩
    obtain ⟨_, hlen, hlast, _, _, _, _⟩ := tree_facts aes (n := o.length) (by omega) (hg _ hmem)
      (keys2_length key) (seed i)
    refine ⟨fullTree aes fl (keys2 key) o.length (seed i), ?_, ?_⟩
    · simp [fullTrees, List.getElem?_mapIdx, ho, hz]
    · unfold fullTree
      rw [unpackLastLevel_eq hlen hlast o rfl]
      rw [ho]
      simp only [Option.map_some, Option.getD_some]
      congr 1
      apply List.map_congr_left
      intro k _
      rw [nodeVal_keys2]; rfl

theorem pathNode_last (L m : Nat) : pathNode 2 (L + 1) m L = m := by simp [pathNode]

theorem receiverUnpack (aes : Cipher) {fl : Nat → Nat → Nat} (key seed : Nat → Block) {Ro : List (List T)}
    {ms : List Nat} (hidx : IdxOk (Ro.map List.length) ms)
    (hg : ∀ n ∈ Ro.map List.length, GoodSize fl n) :
    unpackAll (punctTrees aes fl (keys2 key) seed (Ro.map List.length) ms) Ro =
      .ok (receiverOut T aes fl key seed (Ro.map List.length) ms) := by
  rw [unpackAll_eq (F := fun i => ((Ro[i]?).map (fun o => (List.range o.length).map
    (fun k => if k = ms[i]?.getD 0 then Scalar.ofU128 0 else leafVal T aes fl key seed i o.length k))).getD [])]
  · congr 1
    apply List.ext_getElem?
    intro i
    simp only [List.getElem?_mapIdx, receiverOut, List.getElem?_map, Option.map_map]
    cases ho : Ro[i]? with
    | none => rfl
    | some o =>
      simp only [Option.map_some, Option.getD_some, Function.comp]
      by_cases hz : o.length = 0
      · simp [List.eq_nil_of_length_eq_zero hz]
      · rw [if_neg hz]
  · intro i o ho hz
    have hmem : o.length ∈ Ro.map List.length := by
      rw [List.mem_map]; exact ⟨o, List.mem_iff_getElem?.2 ⟨i, ho⟩, rfl⟩
    obtain ⟨_, hlen, hlast, _, _, _, _⟩ := tree_facts aes (n := o.length) (by omega) (hg _ hmem)
      (keys2_length key) (seed i)
    refine ⟨punctTree aes fl (keys2 key) o.length (seed i) (ms[i]?.getD 0), ?_, ?_⟩
    · simp [punctTrees, List.getElem?_mapIdx, ho, hz]
    · unfold punctTree
      rw [unpackLastLevel_eq hlen hlast o rfl]
      rw [ho]
      simp only [Option.map_some, Option.getD_some]
      congr 1
      apply List.map_congr_left
      intro k _
      rw [pathNode_last, nodeVal_keys2]
      split
      · rfl
      · rfl

theorem joint (aes : Cipher) {fl : Nat → Nat → Nat} (c : Chans) {sec : Sec} (key seed : Nat → Block)
    {So Ro : List (List T)} {ms : List Nat} (hsz : So.map List.length = Ro.map List.length)
    (hidx : IdxOk (Ro.map List.length) ms) (hg : ∀ n ∈ Ro.map List.length, GoodSize fl n)
    (hsec : Scalar.canHash T (secPerLeaf sec (accumulateInt (So.map List.length))) 128 = true) :
    Joint (runSenderBatched aes fl c sec key seed So : PM (Msg T) _)
      (runReceiverBatched aes fl c (ms.map (fun m : Nat => (m : Int))) Ro : PM (Msg T) _)
      (.ok (senderOut T aes fl key seed (Ro.map List.length)))
      (.ok (receiverOut T aes fl key seed (Ro.map List.length) ms))
      (senderView T aes fl c key seed (Ro.map List.length))
      (receiverView T aes fl c key seed (Ro.map List.length) ms) := by
  have hsu := senderUnpack (T := T) aes key seed (So := So) (by rw [hsz]; exact hg)
  have hru := receiverUnpack (T := T) aes key seed hidx hg
  unfold runSenderBatched runReceiverBatched sendTrees receiveTrees
  have hl1 : Ro.length = ms.length := by simpa using hidx.1
  rw [hsec]
  rw [if_neg (by simp [hl1]), indicesOk_of hidx]
  simp only [Bool.not_true, Bool.false_eq_true, if_false]
  rw [if_neg (by simp [hl1])]
  have hk2 : (List.range 2).map key = keys2 key := rfl
  rw [hk2, collectOT_eq aes (keys2_length key) _ seed (by rw [hsz]; exact hg),
    allChoices_eq _ _ _ hidx.1 hg, hsz]
  simp only [PM.lift_ok_bind]
  have hfl := flatten_lengths_eq aes (fl := fl) (keys2 key) seed (Ro.map List.length) ms hidx.1
  unfold senderView receiverView
  simp only
  rw [hsz] at hsu
  rw [hfl]
  have hc : ¬ (List.map List.length Ro).length ≠ (List.map (fun m : Nat => (m : Int)) ms).length := by simp [hl1]
  by_cases hpos : (csRows fl (Ro.map List.length) ms).flatten.length > 0
  · simp only [hpos, hc, if_true, if_false, bind_assoc]
    rw [PM.otSend_bind, PM.otRecv_bind]
    refine Joint.otSR hfl ?_
    rw [PM.send_bind, PM.recv_bind]
    apply Joint.sendRecv
    simp only [PM.unBlocks, PM.lift_ok_bind]
    rw [buildTrees_eq aes (keys2_length key) seed hidx hg]
    simp only [PM.lift_ok_bind, pure_bind]
    rw [hsu, hru]
    exact Joint.ret _ _
  · have hnil : otResult (msgRows aes fl (keys2 key) seed (Ro.map List.length)).flatten
        (csRows fl (Ro.map List.length) ms).flatten = [] := by
      apply List.eq_nil_of_length_eq_zero; rw [otResult_length hfl]; omega
    simp only [hpos, hc, if_false, bind_assoc, pure_bind]
    rw [PM.send_bind, PM.recv_bind]
    apply Joint.sendRecv
    simp only [PM.unBlocks, PM.lift_ok_bind]
    rw [← hnil, buildTrees_eq aes (keys2_length key) seed hidx hg]
    simp only [PM.lift_ok_bind, pure_bind]
    rw [hsu, hru]
    exact Joint.ret _ _

end DVO.ROT
