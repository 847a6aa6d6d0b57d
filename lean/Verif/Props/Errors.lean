/-
Property C50: does an error on one side lead to an error, or to a hang, on the other?
-/
import Verif.Proofs.Errors
import Verif.Props.Create
import Verif.Props.Gilboa
import Mathlib.Data.List.TakeWhile

namespace DVO.ROT
open GGM Net
set_option linter.unusedSectionVars false
variable {T : Type} [Scalar T]

/-! ### Random OT -/

/-- C50 is false for the random OT: if the modulus is too large for the statistical security, the
    sender returns an error at once (all_but_one_random_ot.h:163-169), and a receiver with valid
    arguments waits forever. -/
theorem C50_rot_sender_false (aes : Cipher) (fl : Nat → Nat → Nat) (c : Chans) (sec : Sec) (key seed : Nat → Block)
    (So Ro : List (List T)) (idx : List Int) (h : Matching So Ro idx) (hfl : ∀ o ∈ Ro, GoodSize fl o.length)
    (hsec : Scalar.canHash T (secPerLeaf sec (accumulateInt (So.map List.length))) 128 = false) :
    Hangs (runSenderBatched aes fl c sec key seed So : PM (Msg T) _) (runReceiverBatched aes fl c idx Ro : PM (Msg T) _)
      (.err .invalidArgument "Cannot ensure statistical security with the given modulus") := by
  obtain ⟨ms, rfl, hidx⟩ := h.nat
  rw [sender_rejects aes fl c key seed hsec]
  exact Hangs.ret (receiver_waits aes c hidx (good_map hfl)) _

/-- The other way round: a receiver with an invalid index returns an error at once
    (all_but_one_random_ot.h:97-104), and the sender waits forever in the OT extension if there is
    an output with at least two elements. -/
theorem C50_rot_receiver_false (aes : Cipher) (fl : Nat → Nat → Nat) (c : Chans) (sec : Sec) (key seed : Nat → Block)
    (So Ro : List (List T)) (idx : List Int) (hfl : ∀ o ∈ So, GoodSize fl o.length)
    (hsec : Scalar.canHash T (secPerLeaf sec (accumulateInt (So.map List.length))) 128 = true)
    (hbad : idx.length ≠ Ro.length ∨ ∃ (i : Nat) (o : List T) (j : Int), Ro[i]? = some o ∧ idx[i]? = some j ∧
      (j < 0 ∨ (o ≠ [] ∧ (o.length : Int) ≤ j))) (hbig : ∃ o ∈ So, 2 ≤ o.length) :
    ∃ msg, Hangs (runReceiverBatched aes fl c idx Ro : PM (Msg T) _) (runSenderBatched aes fl c sec key seed So : PM (Msg T) _)
      (.err .invalidArgument msg) := by
  obtain ⟨msg, e⟩ := C12_receiver_rejects aes fl c idx Ro hbad
  rw [e]
  exact ⟨msg, Hangs.ret (sender_waits aes c key seed (good_map hfl) hsec hbig) _⟩

/-- If all outputs have at most one element (no OTs), the sender does not notice that the receiver
    has returned an error: it returns OK, and its keys stay in the channel, where the next call will
    take them for its own first message. This is the only way in which it can end. -/
theorem C50_rot_unnoticed (aes : Cipher) (fl : Nat → Nat → Nat) (c : Chans) (sec : Sec) (key seed : Nat → Block)
    (So Ro : List (List T)) (idx : List Int) (hfl : ∀ o ∈ So, GoodSize fl o.length) (h0 : ∀ o ∈ So, fl o.length 2 = 0)
    (hsec : Scalar.canHash T (secPerLeaf sec (accumulateInt (So.map List.length))) 128 = true)
    (hbad : idx.length ≠ Ro.length ∨ ∃ (i : Nat) (o : List T) (j : Int), Ro[i]? = some o ∧ idx[i]? = some j ∧
      (j < 0 ∨ (o ≠ [] ∧ (o.length : Int) ≤ j))) :
    ∃ msg S, ∀ k st, Steps k (init (runSenderBatched aes fl c sec key seed So : PM (Msg T) _)
        (runReceiverBatched aes fl c idx Ro : PM (Msg T) _)) st →
      st.q = .ret (.err .invalidArgument msg) ∧ k ≤ 1 ∧
      ((∀ t, ¬ Step st t) → st.p = .ret (.ok S) ∧ st.pq c.rot = [.blocks [key 0, key 1]]) := by
  obtain ⟨msg, e⟩ := C12_receiver_rejects aes fl c idx Ro hbad
  rw [e, sender_small aes c key seed (good_map hfl) h0 hsec]
  refine ⟨msg, senderOut T aes fl key seed (So.map List.length), ?_⟩
  intro k st h
  have one : ∀ t, Step (init (Proc.send c.rot (Msg.blocks (keys2 key)) (.ret (.ok (senderOut T aes fl key seed (So.map List.length)))) : Proc (Msg T) (Out (List (List T))))
      (Proc.ret (.err .invalidArgument msg) : Proc (Msg T) (Out (List (List T))))) t →
      t.p = .ret (.ok (senderOut T aes fl key seed (So.map List.length))) ∧ t.q = .ret (.err .invalidArgument msg) ∧
        t.pq c.rot = [.blocks [key 0, key 1]] := by
    intro t ht
    generalize hs : init (Proc.send c.rot (Msg.blocks (keys2 key)) (.ret (.ok (senderOut T aes fl key seed (So.map List.length)))) : Proc (Msg T) (Out (List (List T))))
      (Proc.ret (.err .invalidArgument msg) : Proc (Msg T) (Out (List (List T)))) = s at ht
    unfold init at hs
    cases ht with
    | pSend =>
      simp only [Net.mk.injEq, Proc.send.injEq] at hs
      obtain ⟨⟨rfl, rfl, rfl⟩, rfl, rfl, rfl, rfl, rfl⟩ := hs
      refine ⟨rfl, rfl, ?_⟩
      simp [keys2, List.range_succ]
    | qSend => simp at hs
    | pRecv => simp at hs
    | qRecv => simp at hs
    | otPQ => simp at hs
    | otQP => simp at hs
  cases h with
  | zero =>
    refine ⟨rfl, by omega, ?_⟩
    intro hno
    exact absurd (Step.pSend ..) (hno _)
  | succ h1 h2 =>
    obtain ⟨a1, a2, a3⟩ := one _ h1
    cases h2 with
    | zero => exact ⟨a2, by omega, fun _ => ⟨a1, a3⟩⟩
    | succ h3 _ =>
      exfalso
      cases h3 <;> simp_all

/-- The receiver's index is out of range: `uint64_t`, one output of size 6, index 6. -/
example : ∃ msg, Hangs
      (runReceiverBatched exCipher exFl ⟨0, 0, 0⟩ [6] [List.replicate 6 (0 : BitVec 64)] : PM (Msg (BitVec 64)) _)
      (runSenderBatched exCipher exFl ⟨0, 0, 0⟩ (some (2 ^ 40)) (fun j => j) (fun i => i + 7)
        [List.replicate 6 (0 : BitVec 64)] : PM (Msg (BitVec 64)) _) (.err .invalidArgument msg) :=
  C50_rot_receiver_false exCipher exFl ⟨0, 0, 0⟩ (some (2 ^ 40)) _ _ _ _ [6]
    (by intro o ho; simp at ho; subst ho; constructor <;> simp [exFl]) rfl
    (.inr ⟨0, _, 6, rfl, rfl, .inr (by simp)⟩) ⟨_, List.mem_singleton.2 rfl, by simp⟩

/-- The modulus is too large: 2^127+45 with 40 bits of statistical security. -/
example : Hangs
      (runSenderBatched exCipher exFl ⟨0, 0, 0⟩ (some (2 ^ 40)) (fun j => j) (fun i => i + 7)
        [List.replicate 6 (0 : ZZp (2 ^ 127 + 45))] : PM (Msg (ZZp (2 ^ 127 + 45))) _)
      (runReceiverBatched exCipher exFl ⟨0, 0, 0⟩ [4] [List.replicate 6 (0 : ZZp (2 ^ 127 + 45))] : PM (Msg (ZZp (2 ^ 127 + 45))) _)
      (.err .invalidArgument "Cannot ensure statistical security with the given modulus") :=
  C50_rot_sender_false exCipher exFl ⟨0, 0, 0⟩ (some (2 ^ 40)) _ _ _ _ [4]
    ⟨rfl, rfl, by
      intro i o j ho hj
      match i with
      | 0 => simp at ho hj; subst ho; subst hj; simp
      | i + 1 => simp at ho⟩
    (by intro o ho; simp at ho; subst ho; constructor <;> simp [exFl])
    (by
      show canHashMod ((2 ^ 127 + 45) % 2 ^ 128) (secPerLeaf (some (2 ^ 40)) 6) 128 = false
      unfold canHashMod secPerLeaf; norm_num)

end DVO.ROT

namespace DVO.SPFSS
open ROT GGM Net
set_option linter.unusedSectionVars false
variable {T : Type} [Scalar T]

/-! ### SPFSS -/

/-- C50 is false for SPFSS: the value provider fails the security check, the index provider waits
    forever. -/
theorem C50_spfss_value_false (aes : Cipher) (fl : Nat → Nat → Nat) (c : Chans) (sec : Sec) (key seed : Nat → Block)
    (a b : List T) (O0 O1 : List (List T)) (idx : List Int) (h : Matching O0 O1 idx) (ha : a.length = O0.length) (hb : b.length = O1.length)
    (hfl : ∀ o ∈ O1, GoodSize fl o.length)
    (hsec : Scalar.canHash T (secPerLeaf sec (accumulateInt (O0.map List.length))) 128 = false) :
    Hangs (runValueProviderBatched aes fl c sec key seed a O0 : PM (Msg T) _) (runIndexProviderBatched aes fl c b idx O1 : PM (Msg T) _)
      (.err .invalidArgument "Cannot ensure statistical security with the given modulus") := by
  obtain ⟨ms, rfl, hidx⟩ := h.nat
  rw [value_rejects aes fl c key seed ha hsec]
  exact Hangs.ret (index_waits aes c hidx (good_map hfl) hb) _

/-- The index provider rejects its arguments, the value provider waits forever. -/
theorem C50_spfss_index_false (aes : Cipher) (fl : Nat → Nat → Nat) (c : Chans) (sec : Sec) (key seed : Nat → Block)
    (a b : List T) (O0 O1 : List (List T)) (idx : List Int) (ha : a.length = O0.length) (hfl : ∀ o ∈ O0, GoodSize fl o.length)
    (hsec : Scalar.canHash T (secPerLeaf sec (accumulateInt (O0.map List.length))) 128 = true)
    (hbad : b.length ≠ O1.length ∨ b.length ≠ idx.length ∨ ∃ (i : Nat) (o : List T) (j : Int), O1[i]? = some o ∧ idx[i]? = some j ∧
      (j < 0 ∨ (o ≠ [] ∧ (o.length : Int) ≤ j))) (hbig : ∃ o ∈ O0, 2 ≤ o.length) :
    ∃ msg, Hangs (runIndexProviderBatched aes fl c b idx O1 : PM (Msg T) _) (runValueProviderBatched aes fl c sec key seed a O0 : PM (Msg T) _)
      (.err .invalidArgument msg) := by
  obtain ⟨msg, e⟩ := C12_index_rejects aes fl c b idx O1 hbad
  rw [e]
  exact ⟨msg, Hangs.ret (value_waits aes c key seed (good_map hfl) hsec hbig ha) _⟩

/-- The value provider rejects its arguments, the index provider waits forever. -/
theorem C50_spfss_sizes_false (aes : Cipher) (fl : Nat → Nat → Nat) (c : Chans) (sec : Sec) (key seed : Nat → Block)
    (a b : List T) (O0 O1 : List (List T)) (idx : List Int) (h : Matching O1 O1 idx) (ha : a.length ≠ O0.length) (hb : b.length = O1.length)
    (hfl : ∀ o ∈ O1, GoodSize fl o.length) :
    ∃ msg, Hangs (runValueProviderBatched aes fl c sec key seed a O0 : PM (Msg T) _) (runIndexProviderBatched aes fl c b idx O1 : PM (Msg T) _)
      (.err .invalidArgument msg) := by
  obtain ⟨ms, rfl, hidx⟩ := h.nat
  obtain ⟨msg, e⟩ := C12_value_rejects aes fl c sec key seed a O0 ha
  rw [e]
  exact ⟨msg, Hangs.ret (index_waits aes c hidx (good_map hfl) hb) _⟩

/-- Cases for all three: shares 5 and 7; index -1; one share too many. -/
example : Hangs
      (runValueProviderBatched exCipher exFl ⟨0, 1, 2⟩ (some (2 ^ 40)) (fun j => j) (fun i => i + 7) [5]
        [List.replicate 6 (0 : ZZp (2 ^ 127 + 45))] : PM (Msg (ZZp (2 ^ 127 + 45))) _)
      (runIndexProviderBatched exCipher exFl ⟨0, 1, 2⟩ [7] [4] [List.replicate 6 (0 : ZZp (2 ^ 127 + 45))] : PM (Msg (ZZp (2 ^ 127 + 45))) _)
      (.err .invalidArgument "Cannot ensure statistical security with the given modulus") :=
  C50_spfss_value_false exCipher exFl ⟨0, 1, 2⟩ (some (2 ^ 40)) _ _ [5] [7] _ _ [4]
    ⟨rfl, rfl, by
      intro i o j ho hj
      match i with
      | 0 => simp at ho hj; subst ho; subst hj; simp
      | i + 1 => simp at ho⟩ rfl rfl
    (by intro o ho; simp at ho; subst ho; constructor <;> simp [exFl])
    (by
      show canHashMod ((2 ^ 127 + 45) % 2 ^ 128) (secPerLeaf (some (2 ^ 40)) 6) 128 = false
      unfold canHashMod secPerLeaf; norm_num)

example : ∃ msg, Hangs
      (runIndexProviderBatched exCipher exFl ⟨0, 1, 2⟩ [7] [-1] [List.replicate 6 (0 : BitVec 64)] : PM (Msg (BitVec 64)) _)
      (runValueProviderBatched exCipher exFl ⟨0, 1, 2⟩ (some (2 ^ 40)) (fun j => j) (fun i => i + 7) [5]
        [List.replicate 6 (0 : BitVec 64)] : PM (Msg (BitVec 64)) _) (.err .invalidArgument msg) :=
  C50_spfss_index_false exCipher exFl ⟨0, 1, 2⟩ (some (2 ^ 40)) _ _ [5] [7] _ _ [-1] rfl
    (by intro o ho; simp at ho; subst ho; constructor <;> simp [exFl]) rfl
    (.inr (.inr ⟨0, _, -1, rfl, rfl, .inl (by decide)⟩)) ⟨_, List.mem_singleton.2 rfl, by simp⟩

example : ∃ msg, Hangs
      (runValueProviderBatched exCipher exFl ⟨0, 1, 2⟩ (some (2 ^ 40)) (fun j => j) (fun i => i + 7) [5, 6]
        [List.replicate 6 (0 : BitVec 64)] : PM (Msg (BitVec 64)) _)
      (runIndexProviderBatched exCipher exFl ⟨0, 1, 2⟩ [7] [4] [List.replicate 6 (0 : BitVec 64)] : PM (Msg (BitVec 64)) _)
      (.err .invalidArgument msg) :=
  C50_spfss_sizes_false exCipher exFl ⟨0, 1, 2⟩ (some (2 ^ 40)) _ _ [5, 6] [7] _ _ [4]
    ⟨rfl, rfl, by
      intro i o j ho hj
      match i with
      | 0 => simp at ho hj; subst ho; subst hj; simp
      | i + 1 => simp at ho⟩ (by simp) rfl
    (by intro o ho; simp at ho; subst ho; constructor <;> simp [exFl])

end DVO.SPFSS

namespace DVO.MPFSS
open ROT Net Cuckoo
set_option linter.unusedSectionVars false
variable {T : Type} [Scalar T]

/-! ### MPFSS -/

/-- C50 is false for MPFSS: if hashing the indices fails, the index provider returns an error before
    sending anything (mpfss_known_indices.h:202-212), and the value provider waits forever for the
    masked values. -/
theorem C50_mpfss_index_false (aes : Cipher) (fl : Nat → Nat → Nat) (c : Chans) (sec : Sec) (key seed : Nat → Block) (h : Hasher) (t m : Nat)
    (hs : Sized h fl t m) (thrV thrI : Nat → List Nat) (htV : Threads thrV) (htI : Threads thrI) (stV stI : State)
    (hV : Coherent h stV) (hI : Coherent h stI) (x : T) (w outV y : List T) (indices : List Int) (u v outI : List T)
    (A : Args h t m x w outV y indices u v outI) (hr : InRange m indices)
    (hbad : ¬ ∃ hashed, hashCuckoo h (indices.map indexBlock) (h.optimal t) = .ok hashed) :
    ∃ r : Res T, (∀ a, r.status ≠ .ok a) ∧
      Hangs (runIndexProviderVectorOLE aes fl c thrI stI y indices u v outI)
        (runValueProviderVectorOLE aes fl c sec key seed thrV stV x t w outV) r := by
  obtain ⟨r, h1, -, h2, -⟩ := index_fails (aes := aes) (c := c) (u := u) (v := v) hs htI hI A.len_y A.len_indices
    (fun i hi => le_of_lt (hr i hi).2) A.len_outI hbad
  obtain ⟨k, e, -⟩ := value_program (aes := aes) (c := c) (sec := sec) (key := key) (seed := seed) (x := x) hs htV hV A.len_outV A.len_w
  rw [h1, e]
  exact ⟨r, h2, Hangs.ret (q := Proc.recv _ k) trivial _⟩

/-- The value provider fails the security check after having received the masked values; the index
    provider waits forever in the random OT. -/
theorem C50_mpfss_value_false (aes : Cipher) (fl : Nat → Nat → Nat) (c : Chans) (sec : Sec) (key seed : Nat → Block) (h : Hasher) (t m : Nat)
    (hs : Sized h fl t m) (thrV thrI : Nat → List Nat) (htV : Threads thrV) (htI : Threads thrI) (stV stI : State)
    (hV : Coherent h stV) (hI : Coherent h stI) (x : T) (w outV y : List T) (indices : List Int) (u v outI : List T)
    (A : Args h t m x w outV y indices u v outI) (hr : InRange m indices)
    (hok : ∃ hashed, hashCuckoo h (indices.map indexBlock) (h.optimal t) = .ok hashed)
    (hsec : Scalar.canHash T (secPerLeaf sec ((h.numHash * m : Nat) : Int)) 128 = false) :
    ∃ r : Res T, (∃ msg, r.status = .err .invalidArgument msg) ∧
      Hangs (runValueProviderVectorOLE aes fl c sec key seed thrV stV x t w outV)
        (runIndexProviderVectorOLE aes fl c thrI stI y indices u v outI) r := by
  obtain ⟨hashed, hok⟩ := hok
  obtain ⟨e1, hlen⟩ := index_program (aes := aes) (c := c) (v := v) hs htI hI A.len_y A.len_indices
    (fun i hi => le_of_lt (hr i hi).2) A.len_outI A.len_u hok
  obtain ⟨k, r, msg, e2, e3, e4⟩ := VOLE.value_fails (aes := aes) (c := c) (key := key) (seed := seed) (x := x) hs htV hV A.len_outV A.len_w hlen hsec
  rw [e1, e2]
  have H := hashedOk hs A.len_indices hr hok
  refine ⟨r, ⟨msg, e4⟩, Hangs.recvSend e3 ?_⟩
  have hb := hs.buckets_pos
  have hv := A.len_v
  exact (SPFSS.index_waits aes c (by
    rw [List.map_map]
    have := poss_idxOk H
    simpa [Function.comp_def] using this) (table_good hs) (by simp [table_length]; omega)).bind _

/-- The index is the size of the output, which is not rejected (C20): if it is hashed to a non-empty
    bucket, the index provider sends the masked values, and only then the random OT rejects its
    arguments; the value provider waits forever in the random OT. -/
theorem C50_mpfss_boundary_false (aes : Cipher) (fl : Nat → Nat → Nat) (c : Chans) (sec : Sec) (key seed : Nat → Block) (h : Hasher) (t m : Nat)
    (hs : Supported T h fl sec t m) (thrV thrI : Nat → List Nat) (htV : Threads thrV) (htI : Threads thrI) (stV stI : State)
    (hV : Coherent h stV) (hI : Coherent h stI) (x : T) (w outV y : List T) (indices : List Int) (u v outI : List T)
    (A : Args h t m x w outV y indices u v outI) (hr : ∀ i ∈ indices, i ≤ m) (hashed : List Int)
    (hok : hashCuckoo h (indices.map indexBlock) (h.optimal t) = .ok hashed)
    (hat : ∃ (b e : Nat) (l : List Nat), hashed[b]? = some (e : Int) ∧ indices[e]? = some (m : Int) ∧
      l = simpleBucket h.enc h.numHash (h.optimal t).toNat (allIndices m) b ∧ l ≠ [])
    (hbig : ∃ b : Nat, b < h.optimal t ∧ 2 ≤ (simpleBucket h.enc h.numHash (h.optimal t).toNat (allIndices m) b).length) :
    ∃ r : Res T, (∃ msg, r.status = .err .invalidArgument msg) ∧
      Hangs (runIndexProviderVectorOLE aes fl c thrI stI y indices u v outI)
        (runValueProviderVectorOLE aes fl c sec key seed thrV stV x t w outV) r := by
  obtain ⟨b, e, l, hb, he, hl, hne⟩ := hat
  obtain ⟨b2, hb2, hlong⟩ := hbig
  have hpos := hs.buckets_pos
  obtain ⟨-, H⟩ := hashed_placed hs.toSized A.len_indices hok
  obtain ⟨e1, hlen⟩ := index_program (aes := aes) (c := c) (v := v) hs.toSized htI hI A.len_y A.len_indices hr A.len_outI A.len_u hok
  obtain ⟨k, e2, e3⟩ := value_program (aes := aes) (c := c) (sec := sec) (key := key) (seed := seed) (x := x) hs.toSized htV hV A.len_outV A.len_w
  have hbl : b < hashed.length := (List.getElem?_eq_some_iff.1 hb).1
  have hTb : (table h t m)[b]? = some l := by
    unfold table
    rw [List.getElem?_map, List.getElem?_range (by rw [← H.len]; exact hbl), hl]
    rfl
  have hpb : posIn (table h t m) indices b e = l.length := by
    have hne' : l.length ≠ 0 := by simpa using hne
    unfold posIn
    have : posIn (table h t m) indices b e = lowerBound l (m : Int) := by
      unfold posIn
      simp [List.getD_eq_getElem?_getD, hTb, he, hne]
    unfold posIn at this
    rw [this]
    unfold lowerBound
    rw [List.takeWhile_eq_self_iff.2 (by
      intro i hi
      have := (((table_mem hTb).2 i).1 hi).1
      simpa using this)]
  obtain ⟨msg, er⟩ := SPFSS.C12_index_rejects aes fl c v ((poss h t m indices hashed).map (fun m : Nat => (m : Int)))
    ((table h t m).map (fun b => List.replicate b.length (0 : T))) (.inr (.inr ⟨b, List.replicate l.length 0, (l.length : Int), by simp [hTb], by
      simp [poss, hb, hpb], .inr ⟨by
        intro hz
        have := congrArg List.length hz
        simp at this
        exact hne this, by simp⟩⟩))
  rw [e1, e2, er]
  refine ⟨_, ⟨msg, ?_⟩, Hangs.sendRecv (a := finish ⟨h, table h t m, some m, some t⟩ m (.err .invalidArgument msg)) ?_⟩
  · rfl
  · rw [e3 _ hlen]
    have hw := A.len_w
    have htot := table_total (m := m) hs.buckets_pos
    have hlens : ((table h t m).map (fun b => List.replicate b.length (0 : T))).map List.length = (table h t m).map List.length := by
      simp
    refine (SPFSS.value_waits aes c key seed (table_good hs.toSized) ?_ ?_ ?_).bind _
    · rw [hlens, accumulateInt_eq _ (by rw [htot]; exact hs.size), htot]
      exact hs.canHash
    · refine ⟨List.replicate (simpleBucket h.enc h.numHash (h.optimal t).toNat (allIndices m) b2).length 0, ?_, by simpa using hlong⟩
      refine List.mem_map.2 ⟨_, List.mem_map.2 ⟨b2, ?_, rfl⟩, rfl⟩
      rw [List.mem_range]
      omega
    · simp [shares, table_length]; omega

/-- If the number of buckets cannot be computed or is too large for the hash length, both sides
    return the same error, before any communication. -/
theorem C50_mpfss_buckets_partial (aes : Cipher) (fl : Nat → Nat → Nat) (c : Chans) (sec : Sec) (key seed : Nat → Block) (h : Hasher) (t m : Nat)
    (h0 : 0 < t) (h1 : t ≤ m) (h2 : t < 2 ^ 31) (hh : h.numHash = 2 ∨ h.numHash = 3)
    (h63 : -2 ^ 63 ≤ h.optimal t ∧ h.optimal t < 2 ^ 63) (hbad : h.optimal t ≤ 0 ∨ h.tooManyBits m (h.optimal t).toNat = true)
    (thrV thrI : Nat → List Nat) (htV : Threads thrV) (htI : Threads thrI) (stV stI : State)
    (hV : Coherent h stV) (hI : Coherent h stI) (x : T) (w outV y : List T) (indices : List Int) (u v outI : List T)
    (hy : y.length = t) (hi : indices.length = t) (hoV : outV.length = m) (hoI : outI.length = m) (hr : ∀ i ∈ indices, i ≤ m) :
    ∃ msg sV sI, runValueProviderVectorOLE aes fl c sec key seed thrV stV x t w outV = .ret ⟨.err .invalidArgument msg, outV, sV⟩ ∧
      runIndexProviderVectorOLE aes fl c thrI stI y indices u v outI = .ret ⟨.err .invalidArgument msg, outI, sI⟩ := by
  obtain ⟨msg, hc⟩ : ∃ msg, ∀ thr, computeBuckets thr h m t = .err .invalidArgument msg := by
    have hc : ∀ thr, computeBuckets thr h m t = hashSimple h (thr m) (allIndices m) (h.optimal t) := by
      intro thr
      unfold computeBuckets getOptimalNumberOfBuckets
      rw [if_neg (by omega), if_neg (by omega), if_neg (by omega), if_pos (by omega), Int.toNat_natCast, Int.toNat_natCast,
        toInt64_ok h63.1 h63.2, Out.ok_bind]
    by_cases hp : h.optimal t ≤ 0
    · exact ⟨"`num_buckets` must be positive", fun thr => by rw [hc]; unfold hashSimple; rw [if_pos hp]⟩
    · refine ⟨"The given sizes would require too long hashes", fun thr => ?_⟩
      rw [hc]
      unfold hashSimple
      have hl : (allIndices m).length = m := by simp [allIndices]
      rw [if_neg hp, hl, if_pos (hbad.resolve_left hp)]
  have hu : ∀ {thr st}, Threads thr → Coherent h st → ∃ st', updateBuckets thr st m t = (.err .invalidArgument msg, st') := by
    intro thr st ht hst
    have := (updateBuckets_coherent ht hst m t).1
    have e : updateBuckets thr (State.new h) m t = (.err .invalidArgument msg, State.new h) := by
      unfold updateBuckets
      rw [if_pos (.inl (by simp [State.new]))]
      show (match computeBuckets thr h m t with | .ok b => _ | .err c m => _ | .throws m => _ | .ub w => _ | .diverge => _) = _
      rw [hc]
    rw [e] at this
    exact ⟨(updateBuckets thr st m t).2, Prod.ext this rfl⟩
  obtain ⟨sV, eV⟩ := hu htV hV
  obtain ⟨sI, eI⟩ := hu htI hI
  refine ⟨msg, sV, sI, ?_, ?_⟩
  · unfold runValueProviderVectorOLE
    rw [if_neg (by omega), hoV, eV]
  · unfold runIndexProviderVectorOLE
    have hn : ¬ ((indices.take (toInt32 indices.length).toNat).any (fun i => decide (i > (outI.length : Int))) = true) := by
      rw [List.any_eq_true]
      rintro ⟨i, hi, hgt⟩
      have := hr i (List.mem_of_mem_take hi)
      simp at hgt; omega
    rw [if_neg (by omega), if_neg (by omega), if_neg (by omega), if_neg hn, toInt32_eq (by omega), hoI, hy, eI]

/-- Arguments for any element type: all zeros. -/
theorem zeroArgs {t m : Nat} (ht : t < 100) (indices : List Int) (hi : indices.length = t) :
    Args exH t m (0 : T) (List.replicate (10 * t) 0) (List.replicate m 0) (List.replicate t 0) indices (List.replicate (10 * t) 0)
      (List.replicate (10 * t) 0) (List.replicate m 0) where
  len_y := by simp
  len_indices := hi
  len_outV := by simp
  len_outI := by simp
  len_w := by show _ = (if t < 100 then 10 * t else 1000 : Int); simp; omega
  len_u := by show _ = (if t < 100 then 10 * t else 1000 : Int); simp; omega
  len_v := by show _ = (if t < 100 then 10 * t else 1000 : Int); simp; omega
  corr := by
    intro j uj vj wj hu hv hw
    simp [List.getElem?_replicate] at hu hv hw
    rw [← hu.2, ← hv.2, ← hw.2]
    ring

/-- The same index four times cannot be placed into three buckets. -/
example : ∃ r : Res (BitVec 64), (∀ a, r.status ≠ .ok a) ∧
      Hangs (runIndexProviderVectorOLE exCipher exFl6 ⟨0, 1, 2⟩ exThr (State.new exH) (List.replicate 4 0) [5, 5, 5, 5]
          (List.replicate 40 0) (List.replicate 40 0) (List.replicate 12 0))
        (runValueProviderVectorOLE exCipher exFl6 ⟨0, 1, 2⟩ none (fun j => j) (fun i => i + 7) exThr (State.new exH)
          0 (4 : Nat) (List.replicate 40 0) (List.replicate 12 0)) r :=
  C50_mpfss_index_false exCipher exFl6 ⟨0, 1, 2⟩ none _ _ exH 4 12 (exH_supported (by omega) (by omega) (by omega) none).toSized
    exThr exThr exThr_threads exThr_threads _ _ (.new exH) (.new exH) _ _ _ _ _ _ _ _
    (zeroArgs (t := 4) (m := 12) (by omega) [5, 5, 5, 5] rfl) (by intro i hi; simp at hi; omega) (by
      rw [show hashCuckoo exH (([5, 5, 5, 5] : List Int).map indexBlock) (exH.optimal 4) =
        .err .internal "Failed to insert element, maximum number of tries exhausted" by decide +kernel]
      rintro ⟨_, h⟩
      cases h)

/-- A modulus of 127 bits is too large for 40 bits of security. -/
example : ∃ r : Res (ZZp (2 ^ 127 + 45)), (∃ msg, r.status = .err .invalidArgument msg) ∧
      Hangs (runValueProviderVectorOLE exCipher exFl6 ⟨0, 1, 2⟩ (some (2 ^ 40)) (fun j => j) (fun i => i + 7) exThr (State.new exH)
          (0 : ZZp (2 ^ 127 + 45)) (3 : Nat) (List.replicate 30 0) (List.replicate 12 0))
        (runIndexProviderVectorOLE exCipher exFl6 ⟨0, 1, 2⟩ exThr (State.new exH) (List.replicate 3 0) [5, 3, 8]
          (List.replicate 30 0) (List.replicate 30 0) (List.replicate 12 0)) r :=
  C50_mpfss_value_false exCipher exFl6 ⟨0, 1, 2⟩ (some (2 ^ 40)) _ _ exH 3 12 (exH_supported (by omega) (by omega) (by omega) none).toSized
    exThr exThr exThr_threads exThr_threads _ _ (.new exH) (.new exH) _ _ _ _ _ _ _ _
    (zeroArgs (t := 3) (m := 12) (by omega) [5, 3, 8] rfl) (by intro i hi; simp at hi; omega)
    ⟨[-1, -1, -1, 2, -1, -1, -1, -1, -1, -1, -1, 1, -1, -1, -1, -1, -1, 0, -1, -1, -1, -1, -1, -1, -1, -1, -1, -1, -1, -1],
      by decide +kernel⟩ (by
      show canHashMod ((2 ^ 127 + 45) % 2 ^ 128) (secPerLeaf (some (2 ^ 40)) ((3 * 12 : Nat) : Int)) 128 = false
      unfold canHashMod secPerLeaf; norm_num)

/-- Indices 6 and 0 for an output of size 6. -/
example : ∃ r : Res (BitVec 64), (∃ msg, r.status = .err .invalidArgument msg) ∧
      Hangs (runIndexProviderVectorOLE exCipher exFl6 ⟨0, 1, 2⟩ exThr (State.new exH) (List.replicate 2 0) [6, 0]
          (List.replicate 20 0) (List.replicate 20 0) (List.replicate 6 0))
        (runValueProviderVectorOLE exCipher exFl6 ⟨0, 1, 2⟩ none (fun j => j) (fun i => i + 7) exThr (State.new exH)
          0 (2 : Nat) (List.replicate 20 0) (List.replicate 6 0)) r :=
  C50_mpfss_boundary_false exCipher exFl6 ⟨0, 1, 2⟩ none _ _ exH 2 6 (exH_supported (by omega) (by omega) (by omega) none)
    exThr exThr exThr_threads exThr_threads _ _ (.new exH) (.new exH) _ _ _ _ _ _ _ _
    (zeroArgs (t := 2) (m := 6) (by omega) [6, 0] rfl) (by intro i hi; simp at hi; omega)
    [-1, 0, -1, -1, -1, 1, -1, -1, -1, -1, -1, -1, -1, -1, -1, -1, -1, -1, -1, -1] (by decide +kernel)
    ⟨1, 0, [3, 4], rfl, rfl, by decide +kernel, by simp⟩ ⟨1, by decide +kernel, by decide +kernel⟩

/-- A hasher whose hashes are too short for anything. -/
example : ∃ msg sV sI, runValueProviderVectorOLE exCipher exFl6 ⟨0, 1, 2⟩ none (fun j => j) (fun i => i + 7) exThr
        (State.new { exH with tooManyBits := fun _ _ => true }) (0 : BitVec 64) (2 : Nat) (List.replicate 20 0) (List.replicate 6 0) =
          .ret ⟨.err .invalidArgument msg, List.replicate 6 0, sV⟩ ∧
      runIndexProviderVectorOLE exCipher exFl6 ⟨0, 1, 2⟩ exThr (State.new { exH with tooManyBits := fun _ _ => true }) (List.replicate 2 (0 : BitVec 64)) [4, 0]
          (List.replicate 20 0) (List.replicate 20 0) (List.replicate 6 0) = .ret ⟨.err .invalidArgument msg, List.replicate 6 0, sI⟩ :=
  C50_mpfss_buckets_partial exCipher exFl6 ⟨0, 1, 2⟩ none _ _ { exH with tooManyBits := fun _ _ => true } 2 6 (by omega) (by omega) (by omega)
    (.inr rfl) (by decide) (.inr rfl) exThr exThr exThr_threads exThr_threads _ _ (.new _) (.new _) 0 _ _ _ _ _ _ _ (by simp) (by simp) (by simp) (by simp)
    (by intro i hi; simp at hi; omega)

end DVO.MPFSS

namespace DVO.Gilboa
variable {T : Type} [Scalar T]

/-! ### Gilboa products -/

/-- If the elements are longer than 16 bytes, both sides return an error at once. -/
theorem C50_gilboa_size_partial (c : Chans) (sec : Sec) (m0 : Nat → Block) (rnd : Nat → List T) (x : T) (y o0 o1 : List T)
    (h : 16 < Scalar.sizeOf T) :
    (∃ msg, (runVectorProvider c sec m0 rnd y o0 : PM (Msg T) _) = .ret (.err .invalidArgument msg)) ∧
    (∃ msg, (runValueProvider c sec x o1 : PM (Msg T) _) = .ret (.err .invalidArgument msg)) :=
  ⟨(C26_vector_provider (.inr h) c sec m0 rnd y o0 (fun h' => by omega)).2 (.inr h),
    (C26_value_provider (.inr h) c sec x o1 (fun h' => by omega)).2 h⟩

/-- A modulus of 136 bits. -/
example : 16 < Scalar.sizeOf (ZZp (2 ^ 136)) := by decide +kernel

/-- C50 is false for Gilboa products: the vector provider rejects an output of the wrong size, the
    value provider waits forever in the OT extension. -/
theorem C50_gilboa_false (hT : LawfulScalar T) (c : Chans) (sec : Sec) (m0 : Nat → Block) (rnd : Nat → List T) (x : T) (y o0 o1 : List T)
    (hbad : y.length ≠ o0.length) (hg : GoodLength T o1.length) (hg' : Scalar.sizeOf T ≤ 16 → GoodLength T y.length) :
    ∃ msg, Net.Hangs (runVectorProvider c sec m0 rnd y o0 : PM (Msg T) _) (runValueProvider c sec x o1 : PM (Msg T) _) (.err .invalidArgument msg) := by
  obtain ⟨msg, e⟩ := (C26_vector_provider (.inl hT) c sec m0 rnd y o0 hg').2 (.inl hbad)
  rw [e, valueProvider_eq hT c sec x o1 hg]
  exact ⟨msg, Net.Hangs.ret (by unfold Net.Waits; trivial) _⟩

/-- Three elements, room for two. -/
example : ∃ msg, Net.Hangs (runVectorProvider ⟨0, 1, 2⟩ none (fun i => i) (fun _ => [1, 2, 3]) [4, 5, 6] [0, 0] : PM (Msg (BitVec 64)) _)
    (runValueProvider ⟨0, 1, 2⟩ none 7 [0, 0, 0] : PM (Msg (BitVec 64)) _) (.err .invalidArgument msg) :=
  C50_gilboa_false inferInstance _ _ _ _ _ _ _ _ (by simp) ⟨by decide +kernel, by decide +kernel⟩ (fun _ => ⟨by decide +kernel, by decide +kernel⟩)

end DVO.Gilboa

namespace DVO.VOLE
open Net MPFSS
set_option linter.unusedSectionVars false
variable {T : Type} [Scalar T]

/-! ### Vector OLE -/

/-- C50 is false for the vector OLE: both parties have completed a precomputation; if the sender
    cannot hash its random indices, `RunSender` returns an error, and `RunReceiver` waits forever. -/
theorem C50_vole_run_false [LawfulScalar T] {h : Cuckoo.Hasher} {A B : Env T} (W : Together h A B) (hun : Unlucky h A)
    (hbits : ∀ t : Nat, (t : Int) ∈ noiseSizes → ∀ m ≤ 10616092, h.tooManyBits m (h.optimal t).toNat = false)
    {d : T} {batch : Int} {s r : VState T} (F : Fresh h d batch s r) {n : Nat} (hn : 1 ≤ n) (hfA : 1 ≤ A.fuel) (hfB : 1 ≤ B.fuel) :
    ∃ c m s', Hangs (runSender A n s) (runReceiver B n r) (.err c m, s') := by
  obtain ⟨⟨c, m, s', e⟩, hw⟩ := run_unlucky W hun hbits F hn hfA hfB
  rw [e]
  exact ⟨c, m, s', Hangs.ret hw _⟩

/-- This happens: new objects, a precomputation of batch size 5 that returns OK on both sides, then
    `RunSender(7)` and `RunReceiver(7)`. -/
theorem C50_vole_run_reached_false : ∃ s r va vb c m s', Computes
      (precomputeSender (toyEnv true 1 3000000) 5 (created oneBucket 0)) (precomputeReceiver (toyEnv false 2 3000000) 5 77 (created oneBucket 0))
      (.ok (), s) (.ok (), r) va vb ∧
    Hangs (runSender (toyEnv true 1 3000000) (7 : Nat) s) (runReceiver (toyEnv false 2 3000000) (7 : Nat) r) (.err c m, s') := by
  obtain ⟨s, r, va, vb, h1, F⟩ := oneBucket_fresh 77 (s := created oneBucket 0) (r := created oneBucket 0) (.new _) (.new _) rfl 1 2 3000000 3000000
  obtain ⟨c, m, s', h2⟩ := C50_vole_run_false (oneBucket_together 1 2 3000000 3000000) (oneBucket_unlucky true 1 3000000 (by omega))
    (fun _ _ _ _ => rfl) F (n := 7) (by omega) (by show 1 ≤ 3000000; omega) (by show 1 ≤ 3000000; omega)
  exact ⟨s, r, va, vb, c, m, s', h1, h2⟩

/-- Batch sizes below one are rejected by both sides at once. -/
theorem C50_batch_partial (A B : Env T) {b : Int} (hb : b < 1) (d : T) (s r : VState T) :
    ∃ msg, precomputeSender A b s = .ret (.err .invalidArgument msg, s) ∧ precomputeReceiver B b d r = .ret (.err .invalidArgument msg, r) ∧
      ∃ r', precomputeReceiver' B b r = .ret (.err .invalidArgument msg, r') := by
  refine ⟨"`batch_size` must be positive", ?_, ?_, ?_⟩
  · unfold precomputeSender; rw [if_pos hb]; rfl
  · unfold precomputeReceiver; rw [if_pos hb]; rfl
  · unfold precomputeReceiver' precomputeReceiver; rw [VM.draw_bind, if_pos hb]; exact ⟨_, rfl⟩

/-- Batch size 0. -/
example : (0 : Int) < 1 := by omega

end DVO.VOLE

namespace DVO.Create
open Net
variable {T : Type}

/-! ### Create -/

/-- Running `sync` alone, a party waits, possibly after having sent its message. -/
theorem sync_waits (Q : Party) (ch : Chans) {α β : Type} (f : Unit → PM (Msg T) α) (a : β) :
    Hangs (.ret a) (sync Q ch >>= f : PM (Msg T) α) a := by
  unfold sync
  split
  · exact Hangs.retSend (q := Proc.recv ch.main fun m => _) trivial a
  · exact Hangs.ret (q := Proc.recv ch.main fun m => _) trivial a

/-- C50 is false for all five `Create` functions: a party whose argument is rejected returns at once,
    and the other party waits in `sync`. -/
theorem C50_create_false (aes : Cipher) (bits : Sec → Nat → Nat → Nat → Bool) (optimal : Sec → Nat → Nat → Int) (P Q : Party)
    (seed seed' : Block) (channel : Option Chans) (ch : Chans) (secP secQ : Sec)
    (hP : channel = none ∨ ∃ f, secP = some f ∧ f < 1) (hQ : ∀ f, secQ = some f → 1 ≤ f) :
    (∃ msg, Hangs (rotCreate P channel secP : PM (Msg T) _) (rotCreate Q (some ch) secQ : PM (Msg T) _) (.err .invalidArgument msg)) ∧
    (∃ msg, Hangs (spfssCreate P channel secP : PM (Msg T) _) (spfssCreate Q (some ch) secQ : PM (Msg T) _) (.err .invalidArgument msg)) ∧
    (∃ msg, Hangs (gilboaCreate P channel secP : PM (Msg T) _) (gilboaCreate Q (some ch) secQ : PM (Msg T) _) (.err .invalidArgument msg)) ∧
    (∃ msg, Hangs (mpfssCreate aes bits optimal P seed channel secP : PM (Msg T) _)
      (mpfssCreate aes bits optimal Q seed' (some ch) secQ : PM (Msg T) _) (.err .invalidArgument msg)) ∧
    (∃ msg, Hangs (voleCreate aes bits optimal P seed channel secP : PM (Msg T) _)
      (voleCreate aes bits optimal Q seed' (some ch) secQ : PM (Msg T) _) (.err .invalidArgument msg)) := by
  have hrej : Rejected (rotCreate P channel secP : PM (Msg T) _) ∧ Rejected (spfssCreate P channel secP : PM (Msg T) _) ∧
      Rejected (gilboaCreate P channel secP : PM (Msg T) _) ∧ Rejected (mpfssCreate aes bits optimal P seed channel secP : PM (Msg T) _) ∧
      Rejected (voleCreate aes bits optimal P seed channel secP : PM (Msg T) _) := by
    rcases hP with h | ⟨f, e, hf⟩
    · rw [h]; exact C54_null aes bits optimal P seed secP
    · rw [e]; exact C54_negative aes bits optimal P seed channel f hf
  obtain ⟨⟨m1, e1⟩, ⟨m2, e2⟩, ⟨m3, e3⟩, ⟨m4, e4⟩, ⟨m5, e5⟩⟩ := hrej
  rw [e1, e2, e3, e4, e5, spfss_eq Q ch hQ, (C54_accepted Q ch secQ hQ).1, (C54_accepted Q ch secQ hQ).2]
  refine ⟨⟨m1, sync_waits ..⟩, ⟨m2, sync_waits ..⟩, ⟨m3, sync_waits ..⟩, ⟨m4, ?_⟩, ⟨m5, ?_⟩⟩
  · unfold mpfssCreate
    rw [not_negative hQ]
    exact sync_waits ..
  · unfold voleCreate
    rw [not_negative hQ]
    simp only [Bool.false_eq_true, if_false]
    rw [(C54_accepted Q ch _ (scale hQ 3 (by norm_num))).2]
    show Hangs (.ret _) (((sync Q ch >>= _ : PM (Msg T) _) >>= _ : PM (Msg T) _)) _
    unfold sync
    split
    · exact Hangs.retSend (q := Proc.recv ch.main fun m => _) trivial _
    · exact Hangs.ret (q := Proc.recv ch.main fun m => _) trivial _

/-- One party passes a null channel, the other asks for 40 bits of security. -/
example : ((none : Option Chans) = none ∨ ∃ f : ℚ, (some (2 ^ 40) : Sec) = some f ∧ f < 1) ∧ ∀ f : ℚ, (some (2 ^ 40) : Sec) = some f → 1 ≤ f :=
  ⟨.inl rfl, fun f h => by cases h; norm_num⟩

end DVO.Create
