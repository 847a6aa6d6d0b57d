/-
Properties C07-C09, C12 (first half), C53: all-but-one random OT.
-/
import Verif.Proofs.ROT3
import Verif.Proofs.Scalar

namespace DVO.ROT
open GGM Net
variable {T : Type} [Scalar T]

/-! ### Preparation -/

theorem Matching.nat {So Ro : List (List T)} {idx : List Int} (h : Matching So Ro idx) :
    ∃ ms : List Nat, idx = ms.map (fun m : Nat => (m : Int)) ∧ IdxOk (Ro.map List.length) ms := by
  have hlen := h.length
  have hnn : ∀ i : Nat, ∀ j, idx[i]? = some j → 0 ≤ j := by
    intro i j hj
    have hi : i < idx.length := by rw [List.getElem?_eq_some_iff] at hj; exact hj.1
    exact (h.range i _ j (List.getElem?_eq_getElem (by omega)) hj).1
  refine ⟨idx.map Int.toNat, ?_, by simp [hlen], ?_⟩
  · apply List.ext_getElem?
    intro i
    simp only [List.map_map, List.getElem?_map]
    cases hj : idx[i]? with
    | none => rfl
    | some j =>
      have := hnn i j hj
      simp only [Option.map_some, Function.comp, Option.some.injEq]
      omega
  · intro i n m hn hm hpos
    simp only [List.getElem?_map, Option.map_eq_some_iff] at hn hm
    obtain ⟨o, ho, rfl⟩ := hn
    obtain ⟨j, hj, rfl⟩ := hm
    have := h.range i o j ho hj
    have h2 := this.2 (by intro e; rw [e] at hpos; simp at hpos)
    omega

theorem elem_senderOut (aes : Cipher) (fl : Nat → Nat → Nat) (key seed : Nat → Block) (ns : List Nat) (i k : Nat) :
    elem (senderOut T aes fl key seed ns) i k =
      (ns[i]?).bind (fun n => if k < n then some (leafVal T aes fl key seed i n k) else none) := by
  unfold elem senderOut
  rw [List.getElem?_mapIdx]
  cases ns[i]? with
  | none => rfl
  | some n =>
    simp only [Option.map_some, Option.bind_some, List.getElem?_map]
    by_cases hk : k < n
    · simp [hk]
    · simp [hk]

theorem elem_receiverOut (aes : Cipher) (fl : Nat → Nat → Nat) (key seed : Nat → Block) (ns ms : List Nat) (i k : Nat) :
    elem (receiverOut T aes fl key seed ns ms) i k =
      (ns[i]?).bind (fun n => if k < n then
        some (if k = ms[i]?.getD 0 then Scalar.ofU128 0 else leafVal T aes fl key seed i n k) else none) := by
  unfold elem receiverOut
  rw [List.getElem?_mapIdx]
  cases ns[i]? with
  | none => rfl
  | some n =>
    simp only [Option.map_some, Option.bind_some, List.getElem?_map]
    by_cases hk : k < n
    · simp [hk]
    · simp [hk]

theorem lengths_senderOut (aes : Cipher) (fl : Nat → Nat → Nat) (key seed : Nat → Block) (ns : List Nat) :
    (senderOut T aes fl key seed ns).map List.length = ns := by
  apply List.ext_getElem?
  intro i
  simp only [senderOut, List.getElem?_map, List.getElem?_mapIdx, Option.map_map]
  cases ns[i]? <;> simp

theorem lengths_receiverOut (aes : Cipher) (fl : Nat → Nat → Nat) (key seed : Nat → Block) (ns ms : List Nat) :
    (receiverOut T aes fl key seed ns ms).map List.length = ns := by
  apply List.ext_getElem?
  intro i
  simp only [receiverOut, List.getElem?_map, List.getElem?_mapIdx, Option.map_map]
  cases ns[i]? <;> simp

theorem good_map {fl : Nat → Nat → Nat} {Ro : List (List T)} (h : ∀ o ∈ Ro, GoodSize fl o.length) :
    ∀ n ∈ Ro.map List.length, GoodSize fl n := by
  intro n hn
  obtain ⟨o, ho, rfl⟩ := List.mem_map.1 hn
  exact h o ho

/-! ### C07 -/

/-- C07: with matching arguments, every interleaving of sender and receiver ends with OK on both
    sides; sizes are unchanged; both hold the same element everywhere except at the receiver's
    index, namely the pseudorandom leaf of a GGM tree over the sender's `seed i`, and at its index
    the receiver holds a constant. -/
theorem C07_all_but_one (aes : Cipher) (fl : Nat → Nat → Nat) (c : Chans) (sec : Sec) (key seed : Nat → Block)
    (So Ro : List (List T)) (idx : List Int) (h : Matching So Ro idx)
    (hfl : ∀ o ∈ Ro, GoodSize fl o.length)
    (hsec : Scalar.canHash T (secPerLeaf sec (accumulateInt (So.map List.length))) 128 = true) :
    ∃ S R va vb,
      Computes (runSenderBatched aes fl c sec key seed So : PM (Msg T) _)
        (runReceiverBatched aes fl c idx Ro : PM (Msg T) _) (.ok S) (.ok R) va vb ∧
      S.map List.length = So.map List.length ∧ R.map List.length = Ro.map List.length ∧
      (∀ (i k : Nat) (j : Int), idx[i]? = some j → (k : Int) ≠ j → elem S i k = elem R i k) ∧
      (∀ (i : Nat) (o : List T) (k : Nat), So[i]? = some o → k < o.length →
        elem S i k = some (Scalar.ofU128 (nodeVal aes 2 key (seed i) (fl o.length 2) k))) ∧
      (∀ (i k : Nat) (o : List T), Ro[i]? = some o → idx[i]? = some (k : Int) → o ≠ [] →
        elem R i k = some (Scalar.ofU128 0)) := by
  obtain ⟨ms, rfl, hidx⟩ := h.nat
  refine ⟨_, _, _, _, (joint aes c key seed h.sizes hidx (good_map hfl) hsec).computes, ?_, ?_, ?_, ?_, ?_⟩
  · rw [lengths_senderOut, h.sizes]
  · rw [lengths_receiverOut]
  · intro i k j hj hkj
    rw [elem_senderOut, elem_receiverOut]
    simp only [List.getElem?_map, Option.map_eq_some_iff] at hj
    obtain ⟨m, hm, rfl⟩ := hj
    rw [hm]
    have hkm : k ≠ m := by omega
    simp [hkm]
  · intro i o k ho hk
    rw [elem_senderOut, ← h.sizes, List.getElem?_map, ho]
    simp [hk, leafVal]
  · intro i k o ho hj hne
    simp only [List.getElem?_map, Option.map_eq_some_iff] at hj
    obtain ⟨m, hm, hmk⟩ := hj
    have : m = k := by omega
    subst this
    have := (h.range i o m ho (by simp [hm])).2 hne
    rw [elem_receiverOut, List.getElem?_map, ho, hm]
    simp
    omega

/-- A case that meets the hypotheses: `uint64_t`, one entry of size 6 with index 4, an empty one and
    one of size 5 with index 0. -/
example : ∃ S R va vb, Computes
      (runSenderBatched exCipher exFl ⟨0, 0, 0⟩ (some (2 ^ 40)) (fun j => j) (fun i => i + 7)
        [List.replicate 6 0, [], List.replicate 5 (0 : BitVec 64)] : PM (Msg (BitVec 64)) _)
      (runReceiverBatched exCipher exFl ⟨0, 0, 0⟩ [4, 3, 0]
        [List.replicate 6 0, [], List.replicate 5 (0 : BitVec 64)] : PM (Msg (BitVec 64)) _) (.ok S) (.ok R) va vb := by
  obtain ⟨S, R, va, vb, h, _⟩ := C07_all_but_one (T := BitVec 64) exCipher exFl ⟨0, 0, 0⟩ (some (2 ^ 40))
    (fun j => j) (fun i => i + 7)
    [List.replicate 6 0, [], List.replicate 5 (0 : BitVec 64)] [List.replicate 6 0, [], List.replicate 5 (0 : BitVec 64)]
    [4, 3, 0] ⟨rfl, rfl, by
      intro i o j ho hj
      match i with
      | 0 => simp at ho hj; subst ho; subst hj; simp
      | 1 => simp at ho hj; subst ho; subst hj; simp
      | 2 => simp at ho hj; subst ho; subst hj; simp
      | i + 3 => simp at ho⟩
    (by
      intro o ho
      simp at ho
      rcases ho with rfl | rfl | rfl <;> constructor <;> simp [exFl]) rfl
  exact ⟨S, R, va, vb, h⟩

/-! ### C08 -/

/-- C08: sender's output and complete view (all messages sent and received, all OT inputs) are the
    same for every index vector. -/
theorem C08_sender_view (aes : Cipher) (fl : Nat → Nat → Nat) (c : Chans) (sec : Sec) (key seed : Nat → Block)
    (So Ro : List (List T)) (hfl : ∀ o ∈ Ro, GoodSize fl o.length)
    (hsec : Scalar.canHash T (secPerLeaf sec (accumulateInt (So.map List.length))) 128 = true) :
    ∃ S va, ∀ idx, Matching So Ro idx → ∃ R vb,
      Computes (runSenderBatched aes fl c sec key seed So : PM (Msg T) _)
        (runReceiverBatched aes fl c idx Ro : PM (Msg T) _) (.ok S) (.ok R) va vb := by
  refine ⟨senderOut T aes fl key seed (Ro.map List.length), senderView T aes fl c key seed (Ro.map List.length), ?_⟩
  intro idx h
  obtain ⟨ms, rfl, hidx⟩ := h.nat
  exact ⟨_, _, (joint aes c key seed h.sizes hidx (good_map hfl) hsec).computes⟩

/-- The sender is a straight-line program: it never receives anything. -/
theorem straight_sendTrees (aes : Cipher) (fl : Nat → Nat → Nat) (c : Chans) (sec : Sec) (key seed : Nat → Block)
    (ns : List Nat) : IsStraight (sendTrees T aes fl c sec key seed ns) := by
  unfold sendTrees
  split
  · exact .lift _
  · refine IsStraight.bind (.lift _) ?_
    rintro ⟨trees, ms⟩
    simp only
    split
    · exact .bind (.otSend _ _ _) fun _ => .bind (.send _ _) fun _ => .ret _
    · exact .bind (.send _ _) fun _ => .ret _

theorem straight_runSenderBatched (aes : Cipher) (fl : Nat → Nat → Nat) (c : Chans) (sec : Sec)
    (key seed : Nat → Block) (So : List (List T)) :
    IsStraight (runSenderBatched aes fl c sec key seed So : PM (Msg T) _) :=
  .bind (straight_sendTrees ..) fun _ => .lift _

/-- C08 against an arbitrary peer: for all arguments there is one fixed list of events `v` and one
    result `r` such that, whatever program `q` the other party runs and however the two are
    scheduled, the sender's view is at all times a prefix of `v`, and when it has returned, it has
    returned `r` with view `v`. -/
theorem C08_any_receiver (aes : Cipher) (fl : Nat → Nat → Nat) (c : Chans) (sec : Sec) (key seed : Nat → Block)
    (So : List (List T)) :
    ∃ (v : List (Event (Msg T))) (r : Out (List (List T))), ∀ (β : Type) (q : Proc (Msg T) β) (n : Nat)
      (t : Net (Msg T) (Out (List (List T))) β),
      Steps n (init (runSenderBatched aes fl c sec key seed So) q) t →
      t.pv <+: v ∧ ∀ r', t.p = .ret r' → r' = r ∧ t.pv = v := by
  obtain ⟨v, r, h⟩ := straight_runSenderBatched aes fl c sec key seed So
  refine ⟨v, r, ?_⟩
  intro β q n t ht
  obtain ⟨w, rest, h1, h2, h3⟩ := h.view ht rfl
  simp only [init, List.nil_append] at h1
  refine ⟨⟨rest, by rw [h1, h2]⟩, ?_⟩
  intro r' hr
  rw [hr] at h3
  cases h3
  exact ⟨rfl, by rw [h1, h2]; simp⟩

/-! ### C09 -/

/-- C09: everything the receiver sees and outputs is determined by the keys, its indices and the
    values of the siblings of the path nodes: for two families of seeds that agree there, view and
    output are the same. -/
theorem C09_receiver_view (aes : Cipher) (fl : Nat → Nat → Nat) (c : Chans) (sec : Sec) (key seed seed' : Nat → Block)
    (So Ro : List (List T)) (idx : List Int) (h : Matching So Ro idx)
    (hfl : ∀ o ∈ Ro, GoodSize fl o.length)
    (hsec : Scalar.canHash T (secPerLeaf sec (accumulateInt (So.map List.length))) 128 = true)
    (hag : ∀ (i m : Nat) (o : List T), Ro[i]? = some o → idx[i]? = some (m : Int) → o ≠ [] →
      CopathAgree aes key (fl o.length 2) o.length m (seed i) (seed' i)) :
    ∃ R vb,
      (∃ S va, Computes (runSenderBatched aes fl c sec key seed So : PM (Msg T) _)
        (runReceiverBatched aes fl c idx Ro : PM (Msg T) _) (.ok S) (.ok R) va vb) ∧
      (∃ S va, Computes (runSenderBatched aes fl c sec key seed' So : PM (Msg T) _)
        (runReceiverBatched aes fl c idx Ro : PM (Msg T) _) (.ok S) (.ok R) va vb) := by
  obtain ⟨ms, rfl, hidx⟩ := h.nat
  have j1 := joint aes c key seed h.sizes hidx (good_map hfl) hsec
  have j2 := joint aes c key seed' h.sizes hidx (good_map hfl) hsec
  have hag' : AgreeAll aes fl key seed seed' (Ro.map List.length) ms := by
    intro i n m hn hm hpos
    simp only [List.getElem?_map, Option.map_eq_some_iff] at hn
    obtain ⟨o, ho, rfl⟩ := hn
    exact hag i m o ho (by simp [hm]) (by intro e; rw [e] at hpos; simp at hpos)
  rw [receiverOut_agree hidx (good_map hfl) hag', receiverView_agree c hidx (good_map hfl) hag'] at j1
  exact ⟨_, _, ⟨_, _, j1.computes⟩, ⟨_, _, j2.computes⟩⟩

/-- A case with different seeds: a cipher for which `AES(k, p) xor p` is the lowest bit of `p`, two
    leaves, seeds 2 and 4. -/
example : CopathAgree (fun _ p => p ^^^ (p &&& 1)) (fun j => j) 1 2 0 2 4 ∧ (2 : Block) ≠ 4 := by
  refine ⟨?_, by decide⟩
  intro l hl _
  have : l = 0 := by omega
  subst this
  decide

/-! ### C12 (random OT) -/

/-- C12 for the receiver: if the number of indices differs from the number of outputs, or some index
    is negative or not below the size of its non-empty output, the call returns INVALID_ARGUMENT and
    communicates nothing (its program is the immediate return). -/
theorem C12_receiver_rejects (aes : Cipher) (fl : Nat → Nat → Nat) (c : Chans) (idx : List Int) (Ro : List (List T))
    (h : idx.length ≠ Ro.length ∨ ∃ (i : Nat) (o : List T) (j : Int), Ro[i]? = some o ∧ idx[i]? = some j ∧
      (j < 0 ∨ (o ≠ [] ∧ (o.length : Int) ≤ j))) :
    ∃ msg, (runReceiverBatched aes fl c idx Ro : PM (Msg T) _) = Proc.ret (.err .invalidArgument msg) := by
  unfold runReceiverBatched
  by_cases hl : Ro.length ≠ idx.length
  · rw [if_pos hl]; exact ⟨_, rfl⟩
  · rw [if_neg hl]
    rcases h with h | ⟨i, o, j, ho, hj, hbad⟩
    · exact absurd (fun e => h e.symm) hl
    · have hno : indicesOk (Ro.map List.length) idx = false := by
        unfold indicesOk
        rw [List.all_eq_false]
        refine ⟨(o.length, j), ?_, ?_⟩
        · rw [List.mem_iff_getElem?]
          exact ⟨i, by simp [List.getElem?_zip_eq_some, ho, hj]⟩
        · rcases hbad with hb | ⟨h1, h2⟩
          · simp [hb]
          · have : o.length ≠ 0 := by
              intro e; exact h1 (List.eq_nil_of_length_eq_zero e)
            simp [h1, h2]
      rw [hno]
      exact ⟨_, rfl⟩

/-- All other index arguments are accepted: the receiver goes on to `ReceiveTrees`. -/
theorem C12_receiver_accepts (aes : Cipher) (fl : Nat → Nat → Nat) (c : Chans) (idx : List Int) (Ro : List (List T))
    (hlen : idx.length = Ro.length)
    (h : ∀ (i : Nat) (o : List T) (j : Int), Ro[i]? = some o → idx[i]? = some j →
      0 ≤ j ∧ (o ≠ [] → j < o.length)) :
    (runReceiverBatched aes fl c idx Ro : PM (Msg T) _) = (do
      let trees ← receiveTrees T aes fl c (Ro.map List.length) idx
      PM.lift (unpackAll trees Ro)) := by
  obtain ⟨ms, rfl, hidx⟩ := (Matching.mk (So := Ro) rfl hlen h).nat
  unfold runReceiverBatched
  rw [if_neg (by simpa using hlen.symm), indicesOk_of hidx]
  rfl

example : ∃ msg, (runReceiverBatched exCipher exFl ⟨0, 0, 0⟩ [0, 6] [[], List.replicate 6 (0 : BitVec 64)] :
    PM (Msg (BitVec 64)) _) = Proc.ret (.err .invalidArgument msg) :=
  C12_receiver_rejects _ _ _ _ _ (Or.inr ⟨1, List.replicate 6 0, 6, rfl, rfl, Or.inr (by simp)⟩)

/-! ### C53 -/

/-- C53: the two conversions are inverse to each other (in fact both are the identity on the 128-bit
    register). -/
theorem C53_conversions : (∀ x : Block, empToGgm (ggmToEmp x) = x) ∧ (∀ x : Block, ggmToEmp (empToGgm x) = x) ∧
    Function.Bijective ggmToEmp ∧ Function.Bijective empToGgm := by
  refine ⟨fun x => by rw [ggmToEmp_eq, empToGgm_eq], fun x => by rw [empToGgm_eq, ggmToEmp_eq], ?_, ?_⟩
  · rw [show ggmToEmp = id from funext ggmToEmp_eq]; exact Function.bijective_id
  · rw [show empToGgm = id from funext empToGgm_eq]; exact Function.bijective_id

example : ggmToEmp 0x0123456789abcdef_fedcba9876543210#128 = 0x0123456789abcdef_fedcba9876543210#128 := by decide

end DVO.ROT
