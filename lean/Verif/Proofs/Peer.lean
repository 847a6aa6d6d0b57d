/-
One party, whatever its peer sends.
-/
import Verif.Spec.Peer
import Verif.Props.Parallel

namespace DVO
variable {M α β : Type}

theorem Reads.of_bind {p : Proc M α} {f : α → Proc M β} {l : List M} {b : β} (h : Reads (p.bind f) l b) :
    ∃ l1 l2 a, l = l1 ++ l2 ∧ Reads p l1 a ∧ Reads (f a) l2 b := by
  induction p generalizing l with
  | ret a => exact ⟨[], l, a, rfl, .ret a, h⟩
  | send ch m k ih =>
    cases h with
    | send _ _ _ _ _ h => obtain ⟨l1, l2, a, e, h1, h2⟩ := ih h; exact ⟨l1, l2, a, e, .send _ _ _ _ _ h1, h2⟩
  | recv ch k ih =>
    cases h with
    | recv _ _ m l _ h => obtain ⟨l1, l2, a, e, h1, h2⟩ := ih m h; exact ⟨m :: l1, l2, a, by rw [e]; rfl, .recv _ _ m _ _ h1, h2⟩
  | otSend ch kd ms k ih =>
    cases h with
    | otSend _ _ _ _ _ _ h => obtain ⟨l1, l2, a, e, h1, h2⟩ := ih h; exact ⟨l1, l2, a, e, .otSend _ _ _ _ _ _ h1, h2⟩
  | otRecv ch kd cs k ih =>
    cases h with
    | otRecv _ _ _ _ r _ _ hr h => obtain ⟨l1, l2, a, e, h1, h2⟩ := ih r h; exact ⟨l1, l2, a, e, .otRecv _ _ _ _ r _ _ hr h1, h2⟩

theorem Reads.bind {p : Proc M α} {f : α → Proc M β} {l1 l2 : List M} {a : α} {b : β} (h1 : Reads p l1 a) (h2 : Reads (f a) l2 b) :
    Reads (p.bind f) (l1 ++ l2) b := by
  induction h1 with
  | ret a => exact h2
  | send ch m k l a _ ih => exact .send _ _ _ _ _ (ih h2)
  | recv ch k m l a _ ih => exact .recv _ _ _ _ _ (ih h2)
  | otSend ch kd ms k l a _ ih => exact .otSend _ _ _ _ _ _ (ih h2)
  | otRecv ch kd cs k r l a hr _ ih => exact .otRecv _ _ _ _ r _ _ hr (ih h2)

theorem Reads.of_ret {a b : α} {l : List M} (h : Reads (.ret a) l b) : l = [] ∧ b = a := by
  cases h; exact ⟨rfl, rfl⟩

end DVO

namespace DVO.ROT
open GGM Par
variable {T : Type} [Scalar T]

/-- A tree of the expected shape with arbitrary values. -/
def anyTree (fl : Nat → Nat → Nat) (keys : List Block) (n : Nat) (W : Nat → Nat → Block) : Tree := ⟨2, mk (szs fl n) W, keys, keys⟩

/-- The trees the receiver builds from arbitrary blocks: their shape is the expected one. -/
theorem buildTrees_any (aes : Cipher) {fl : Nat → Nat → Nat} {keys : List Block} (hk : keys.length = 2) {ns ms : List Nat}
    (hidx : IdxOk ns ms) (hg : ∀ n ∈ ns, GoodSize fl n) {res : List Block} (hr : res.length = (csRows fl ns ms).flatten.length) :
    ∃ V : Nat → Nat → Nat → Block, ∃ trees, buildTrees aes fl keys (csRows fl ns ms).flatten res
        ((List.range (ns.length + 1)).map (fun i => 0 + offs fl ns i)) ns (ms.map (fun m : Nat => (m : Int))) = .ok (trees, none) ∧
      ∀ i n : Nat, ns[i]? = some n → n ≠ 0 → trees[i]? = some (some (anyTree fl keys n (V i))) := by
  obtain ⟨hlen, hlt⟩ := id hidx
  unfold buildTrees
  set CS := (csRows fl ns ms).flatten with hCS
  obtain ⟨s, h1, h2, h3, h4⟩ := loop_inv (fun i (st : List (Option Tree) × Option (Code × String)) => do
    let n ← rd ns i
    if n = 0 then Out.ok (st.1 ++ [none], st.2) else
    let o0 ← rd ((List.range (ns.length + 1)).map (fun i => 0 + offs fl ns i)) i
    let o1 ← rd ((List.range (ns.length + 1)).map (fun i => 0 + offs fl ns i)) (i + 1)
    let xors ← xorTable CS res o0 (o1 - o0)
    let idx ← rd (ms.map (fun m : Nat => (m : Int))) i
    match createFromXor aes fl 2 n idx xors keys with
    | .ok t => .ok (st.1 ++ [some t], st.2)
    | .err c m => .ok (st.1 ++ [none], some (c, m))
    | .throws m => .throws m
    | .ub w => .ub w
    | .diverge => .diverge)
    (fun i st => st.2 = none ∧ st.1.length = i ∧ ∀ j n, j < i → ns[j]? = some n → n ≠ 0 →
      ∃ W, st.1[j]? = some (some (anyTree fl keys n W))) 0 ns.length ([], none)
    ⟨rfl, rfl, by intro j n hj; omega⟩
    (by
      rintro i ⟨ts, e⟩ _ hi ⟨he, hl, hI⟩
      have hi : i < ns.length := by omega
      have hi2 : i < ms.length := by omega
      dsimp only at he hl hI
      subst he
      have hext : ∀ x : Option Tree, (∀ n, ns[i]? = some n → n ≠ 0 → ∃ W, x = some (anyTree fl keys n W)) →
          ((ts ++ [x], (none : Option (Code × String))).2 = none ∧ (ts ++ [x], (none : Option (Code × String))).1.length = i + 1 ∧
            ∀ j n, j < i + 1 → ns[j]? = some n → n ≠ 0 →
              ∃ W, (ts ++ [x], (none : Option (Code × String))).1[j]? = some (some (anyTree fl keys n W))) := by
        intro x hx
        refine ⟨rfl, by simp [hl], ?_⟩
        intro j n hj hn hz
        by_cases e : j < i
        · obtain ⟨W, hW⟩ := hI j n e hn hz
          exact ⟨W, by rw [List.getElem?_append_left (by omega)]; exact hW⟩
        · have : j = i := by omega
          subst this
          obtain ⟨W, hW⟩ := hx n hn hz
          exact ⟨W, by rw [List.getElem?_append_right (by omega), hl, Nat.sub_self, hW]; rfl⟩
      rw [rd_of_lt hi, Out.ok_bind]
      by_cases hz : ns[i] = 0
      · rw [if_pos hz]
        refine ⟨_, rfl, hext none ?_⟩
        intro n hn hn0
        rw [List.getElem?_eq_getElem hi, hz] at hn
        exact absurd (Option.some.inj hn).symm hn0
      · rw [if_neg hz]
        have hoff : offs fl ns (i + 1) = offs fl ns i + fl ns[i] 2 := by
          unfold offs
          rw [List.take_succ_eq_append_getElem hi, List.map_append, List.sum_append]
          simp only [List.map_cons, List.map_nil, List.sum_cons, List.sum_nil, kOf, hz, if_false, Nat.add_zero]
        have e0 : rd ((List.range (ns.length + 1)).map (fun i => 0 + offs fl ns i)) i = .ok (offs fl ns i) := by
          rw [rd_eq_ok]; simp [show i < ns.length + 1 by omega]
        have e1 : rd ((List.range (ns.length + 1)).map (fun i => 0 + offs fl ns i)) (i + 1) = .ok (offs fl ns i + fl ns[i] 2) := by
          rw [rd_eq_ok]; simp [hi, hoff]
        have hle : offs fl ns i + fl ns[i] 2 ≤ CS.length := by
          have h2 := take_csRows_lengths (fl := fl) ns ms hlen ns.length
          rw [List.take_of_length_le (by simp [csRows])] at h2
          rw [hCS, List.length_flatten, h2, ← hoff]
          unfold offs
          rw [List.take_of_length_le (le_refl ns.length)]
          conv_rhs => rw [← List.take_append_drop (i + 1) ns, List.map_append, List.sum_append]
          omega
        rw [e0, e1]
        simp only [Out.ok_bind, Nat.add_sub_cancel_left]
        obtain ⟨x, hx⟩ := xorTable_any hle (by rw [hr]; exact hle) (res := res)
        rw [hx, Out.ok_bind, show rd (ms.map (fun m : Nat => (m : Int))) i = .ok (ms[i] : Int) by rw [rd_eq_ok]; simp [hi2], Out.ok_bind]
        have hpos : 0 < ns[i] := by omega
        obtain ⟨hs, hl', hlast, hal, hb, _, _⟩ := tree_facts aes hpos (hg _ (by simp)) hk 0
        have hm := hidx.2 i ns[i] ms[i] (by simp [hi]) (by simp [hi2]) hpos
        have hN : (szs fl ns[i])[(szs fl ns[i]).length - 1]? = some ns[i] := by rw [hl']; exact hlast
        have hu := createFromXor_unfold aes fl (by omega) hk hs hN hm hal x
        obtain ⟨W, hW⟩ := fillLoop_safe aes (by omega) hk hs hN hm hb x (fun _ _ => 0)
        rw [hW, hl', Nat.add_sub_cancel, Out.ok_bind] at hu
        have hu' : createFromXor aes fl 2 ns[i] ms[i] (mat (fl ns[i] 2) 2 x) keys = _ := hu
        rw [hu']
        refine ⟨_, rfl, hext _ ?_⟩
        intro n hn _
        rw [List.getElem?_eq_getElem hi] at hn
        cases hn
        exact ⟨_, rfl⟩)
  rw [Nat.zero_add] at h3 h4
  have h5 : ∀ i : Nat, ∃ W, ∀ n : Nat, ns[i]? = some n → n ≠ 0 → s.1[i]? = some (some (anyTree fl keys n W)) := by
    intro i
    by_cases hi : i < ns.length
    · by_cases hz : ns[i] = 0
      · exact ⟨fun _ _ => 0, fun n hn h0 => absurd (by rw [List.getElem?_eq_getElem hi, hz] at hn; exact (Option.some.inj hn).symm) h0⟩
      · obtain ⟨W, hW⟩ := h4 i ns[i] hi (List.getElem?_eq_getElem hi) hz
        refine ⟨W, fun n hn _ => ?_⟩
        rw [List.getElem?_eq_getElem hi] at hn
        cases hn
        exact hW
    · exact ⟨fun _ _ => 0, fun n hn _ => absurd hn (by rw [List.getElem?_eq_none (by omega)]; simp)⟩
  choose V hV using h5
  refine ⟨V, s.1, ?_, hV⟩
  refine Eq.trans h1 ?_
  rw [← h2]

theorem unpackAll_any (aes : Cipher) {fl : Nat → Nat → Nat} {keys : List Block} (hk : keys.length = 2) {Ro : List (List T)}
    (hg : ∀ n ∈ Ro.map List.length, GoodSize fl n) {trees : List (Option Tree)} {V : Nat → Nat → Nat → Block}
    (h : ∀ i n : Nat, (Ro.map List.length)[i]? = some n → n ≠ 0 → trees[i]? = some (some (anyTree fl keys n (V i)))) :
    ∃ outs, unpackAll trees Ro = .ok outs ∧ outs.map List.length = Ro.map List.length := by
  rw [unpackAll_eq (F := fun i => ((Ro[i]?).map (fun o => (List.range o.length).map
    (fun k => (Scalar.ofU128 (V i (fl o.length 2) k) : T)))).getD [])]
  · refine ⟨_, rfl, ?_⟩
    apply List.ext_getElem?
    intro i
    simp only [List.getElem?_map, List.getElem?_mapIdx, Option.map_map]
    cases ho : Ro[i]? with
    | none => rfl
    | some o =>
      simp only [Option.map_some, Option.getD_some, Function.comp]
      split <;> simp
  · intro i o ho hz
    have hmem : o.length ∈ Ro.map List.length := by
      rw [List.mem_map]; exact ⟨o, List.mem_iff_getElem?.2 ⟨i, ho⟩, rfl⟩
    obtain ⟨_, hlen, hlast, _, _, _, _⟩ := tree_facts aes (n := o.length) (by omega) (hg _ hmem) hk 0
    refine ⟨_, h i o.length (by simp [ho]) hz, ?_⟩
    unfold anyTree
    rw [unpackLastLevel_eq hlen hlast o rfl, ho]
    rfl

/-- The receiver after its oblivious transfers, once a message has arrived. -/
def afterOT (aes : Cipher) (fl : Nat → Nat → Nat) (Ro : List (List T)) (ms : List Nat) (r : List Block) (m : Msg T) :
    PM (Msg T) (List (List T)) := do
  let keys ← PM.lift (PM.unBlocks m)
  let p ← PM.lift (buildTrees aes fl keys (csRows fl (Ro.map List.length) ms).flatten r
    ((List.range ((Ro.map List.length).length + 1)).map (fun i => 0 + offs fl (Ro.map List.length) i)) (Ro.map List.length)
    (ms.map (fun m : Nat => (m : Int))))
  let q : PM (Msg T) (List (Option Tree)) := match p.2 with
    | none => pure p.1
    | some (cd, ms) => PM.lift (.err cd ms)
  q >>= fun trees => PM.lift (unpackAll trees Ro)

theorem afterOT_ok (aes : Cipher) {fl : Nat → Nat → Nat} {Ro : List (List T)} {ms : List Nat}
    (hidx : IdxOk (Ro.map List.length) ms) (hg : ∀ n ∈ Ro.map List.length, GoodSize fl n) {r keys : List Block}
    (hr : r.length = (csRows fl (Ro.map List.length) ms).flatten.length) (hk : keys.length = 2) :
    ∃ outs, afterOT aes fl Ro ms r (.blocks keys) = Proc.ret (.ok outs) ∧ outs.map List.length = Ro.map List.length := by
  obtain ⟨V, trees, h1, h2⟩ := buildTrees_any aes hk hidx hg hr
  obtain ⟨outs, h3, h4⟩ := unpackAll_any (T := T) aes hk hg h2
  refine ⟨outs, ?_, h4⟩
  unfold afterOT
  simp only [PM.unBlocks, PM.lift_ok_bind]
  rw [h1]
  simp only [PM.lift_ok_bind]
  show PM.lift (unpackAll trees Ro) = _
  rw [h3]
  rfl

theorem receiver_form (aes : Cipher) {fl : Nat → Nat → Nat} (c : Chans) {Ro : List (List T)} {ms : List Nat}
    (hidx : IdxOk (Ro.map List.length) ms) (hg : ∀ n ∈ Ro.map List.length, GoodSize fl n) :
    (runReceiverBatched aes fl c (ms.map (fun m : Nat => (m : Int))) Ro : PM (Msg T) _) =
      if (csRows fl (Ro.map List.length) ms).flatten.length > 0 then
        Proc.otRecv c.rot .ot (csRows fl (Ro.map List.length) ms).flatten (fun r => .recv c.rot (afterOT aes fl Ro ms r))
      else Proc.recv c.rot (afterOT aes fl Ro ms []) := by
  have hl1 : Ro.length = ms.length := by simpa using hidx.1
  unfold runReceiverBatched receiveTrees
  rw [if_neg (by simp [hl1]), indicesOk_of hidx]
  simp only [Bool.not_true, Bool.false_eq_true, if_false]
  rw [if_neg (by simp [hl1]), allChoices_eq _ _ _ hidx.1 hg]
  simp only [PM.lift_ok_bind]
  by_cases hpos : (csRows fl (Ro.map List.length) ms).flatten.length > 0
  · simp only [hpos, if_true, bind_assoc]
    rfl
  · simp only [hpos, if_false, bind_assoc, pure_bind]
    rfl

/-- The receiver with any answer. -/
theorem receiver_reads (aes : Cipher) {fl : Nat → Nat → Nat} (c : Chans) {Ro : List (List T)} {ms : List Nat}
    (hidx : IdxOk (Ro.map List.length) ms) (hg : ∀ n ∈ Ro.map List.length, GoodSize fl n) {l : List (Msg T)} {o : Out (List (List T))}
    (h : Reads (α := Out (List (List T))) (runReceiverBatched aes fl c (ms.map (fun m : Nat => (m : Int))) Ro) l o) :
    ∃ m, l = [m] ∧ (Answers .keys m → (m = .closed ∧ o = .throws "connection closed") ∨
      ∃ keys outs, m = .blocks keys ∧ o = .ok outs ∧ outs.map List.length = Ro.map List.length) := by
  rw [receiver_form aes c hidx hg] at h
  have key : ∀ (r : List Block) (l : List (Msg T)) (o), r.length = (csRows fl (Ro.map List.length) ms).flatten.length →
      Reads (.recv c.rot (afterOT aes fl Ro ms r)) l o → ∃ m, l = [m] ∧ (Answers .keys m →
      (m = .closed ∧ o = .throws "connection closed") ∨
      ∃ keys outs, m = .blocks keys ∧ o = .ok outs ∧ outs.map List.length = Ro.map List.length) := by
    intro r l o hr h
    cases h with
    | recv _ _ m l _ h =>
      have hret : ∃ x, afterOT aes fl Ro ms r m = Proc.ret x := by
        unfold afterOT
        cases PM.unBlocks m with
        | ok keys =>
          rw [PM.lift_ok_bind]
          generalize buildTrees aes fl keys _ r _ _ _ = b
          cases b with
          | ok p =>
            rw [PM.lift_ok_bind]
            rcases p with ⟨ts, _ | ⟨cd, e⟩⟩ <;> exact ⟨_, rfl⟩
          | _ => exact ⟨_, rfl⟩
        | _ => exact ⟨_, rfl⟩
      obtain ⟨x, hx⟩ := hret
      rw [hx] at h
      obtain ⟨rfl, rfl⟩ := h.of_ret
      refine ⟨m, rfl, fun ha => ?_⟩
      cases m with
      | closed =>
        left
        refine ⟨rfl, ?_⟩
        have : afterOT aes fl Ro ms r .closed = Proc.ret (.throws "connection closed") := rfl
        rw [this] at hx
        exact (Proc.ret.inj hx).symm
      | blocks keys =>
        right
        obtain ⟨outs, h1, h2⟩ := afterOT_ok aes hidx hg hr (show keys.length = 2 from ha)
        rw [h1] at hx
        exact ⟨keys, outs, rfl, (Proc.ret.inj hx).symm, h2⟩
      | _ => exact absurd ha id
  by_cases hpos : (csRows fl (Ro.map List.length) ms).flatten.length > 0
  · rw [if_pos hpos] at h
    cases h with
    | otRecv _ _ _ _ r _ _ hr h => exact key r _ _ hr h
  · rw [if_neg hpos] at h
    exact key [] _ _ (by simp only [List.length_nil]; omega) h

/-- Any two keys let the receiver return. -/
theorem receiver_reads_ok (aes : Cipher) {fl : Nat → Nat → Nat} (c : Chans) {Ro : List (List T)} {ms : List Nat}
    (hidx : IdxOk (Ro.map List.length) ms) (hg : ∀ n ∈ Ro.map List.length, GoodSize fl n) {keys : List Block} (hk : keys.length = 2) :
    ∃ outs, Reads (α := Out (List (List T))) (runReceiverBatched aes fl c (ms.map (fun m : Nat => (m : Int))) Ro) [.blocks keys] (.ok outs) ∧
      outs.map List.length = Ro.map List.length := by
  rw [receiver_form aes c hidx hg]
  by_cases hpos : (csRows fl (Ro.map List.length) ms).flatten.length > 0
  · obtain ⟨outs, h1, h2⟩ := afterOT_ok (T := T) aes hidx hg (r := List.replicate (csRows fl (Ro.map List.length) ms).flatten.length 0)
      (by simp) hk
    refine ⟨outs, ?_, h2⟩
    rw [if_pos hpos]
    refine .otRecv _ _ _ _ (List.replicate (csRows fl (Ro.map List.length) ms).flatten.length 0) _ _ (by simp) (.recv _ _ _ _ _ ?_)
    rw [h1]
    exact .ret _
  · obtain ⟨outs, h1, h2⟩ := afterOT_ok (T := T) aes hidx hg (r := []) (by simp only [List.length_nil]; omega) hk
    refine ⟨outs, ?_, h2⟩
    rw [if_neg hpos]
    refine .recv _ _ _ _ _ ?_
    rw [h1]
    exact .ret _

end DVO.ROT
