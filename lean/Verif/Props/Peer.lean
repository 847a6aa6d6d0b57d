/-
Property C79: what a party does with messages from any peer.
-/
import Verif.Proofs.Peer
import Verif.Props.SPFSS
import Verif.Props.MPFSS

namespace DVO
variable {T : Type} [Scalar T]

omit [Scalar T] in
theorem AnswersAll.head {r : Request} {rs : List Request} {m : Msg T} {l : List (Msg T)} (h : AnswersAll (r :: rs) (m :: l)) :
    Answers r m ∧ AnswersAll rs l :=
  ⟨h 0 r m rfl rfl, fun i r' m' h1 h2 => h (i + 1) r' m' h1 h2⟩

namespace ROT
open GGM

omit [Scalar T] in
theorem matching_of_ok {Ro : List (List T)} {idx : List Int} (h1 : Ro.length = idx.length)
    (h2 : indicesOk (Ro.map List.length) idx = true) : Matching Ro Ro idx := by
  refine ⟨rfl, h1.symm, fun i o j ho hj => ?_⟩
  unfold indicesOk at h2
  rw [List.all_eq_true] at h2
  have hm : (o.length, j) ∈ List.zip (Ro.map List.length) idx := by
    refine List.mem_iff_getElem?.2 ⟨i, ?_⟩
    rw [List.getElem?_zip_eq_some]
    exact ⟨by simp [ho], hj⟩
  have := h2 _ hm
  simp only [Bool.not_eq_eq_eq_not, Bool.not_true, Bool.or_eq_false_iff, decide_eq_false_iff_not, Bool.and_eq_false_iff, bne_eq_false_iff_eq] at this
  refine ⟨by omega, fun hne => ?_⟩
  have : o.length ≠ 0 := by simpa using hne
  omega

/-- The sender of the random OT receives nothing. -/
theorem sender_reads (aes : Cipher) {fl : Nat → Nat → Nat} (c : Chans) {sec : Sec} {key seed : Nat → Block} {So : List (List T)}
    (hg : ∀ n ∈ So.map List.length, GoodSize fl n) {l : List (Msg T)} {o : Out (List (List T))}
    (h : Reads (α := Out (List (List T))) (runSenderBatched aes fl c sec key seed So) l o) :
    l = [] ∧ ((∃ m, o = .err .invalidArgument m) ∨ o = .ok (senderOut T aes fl key seed (So.map List.length))) := by
  have hsu := senderUnpack (T := T) aes key seed (So := So) hg
  unfold runSenderBatched sendTrees at h
  by_cases hsec : Scalar.canHash T (secPerLeaf sec (accumulateInt (So.map List.length))) 128 = true
  · rw [hsec] at h
    simp only [Bool.not_true, Bool.false_eq_true, if_false] at h
    have hk2 : (List.range 2).map key = keys2 key := rfl
    rw [hk2, collectOT_eq aes (keys2_length key) _ seed hg] at h
    simp only [PM.lift_ok_bind] at h
    by_cases hpos : (msgRows aes fl (keys2 key) seed (So.map List.length)).flatten.length > 0
    · simp only [hpos, if_true, bind_assoc] at h
      rw [PM.otSend_bind] at h
      cases h with
      | otSend _ _ _ _ _ _ h =>
        rw [PM.send_bind] at h
        cases h with
        | send _ _ _ _ _ h =>
          rw [pure_bind, hsu] at h
          exact ⟨h.of_ret.1, .inr h.of_ret.2⟩
    · simp only [hpos, if_false, bind_assoc, pure_bind] at h
      rw [PM.send_bind] at h
      cases h with
      | send _ _ _ _ _ h =>
        rw [hsu] at h
        exact ⟨h.of_ret.1, .inr h.of_ret.2⟩
  · simp only [hsec, Bool.not_false, if_true] at h
    rw [PM.lift_err_bind] at h
    exact ⟨h.of_ret.1, .inl ⟨_, h.of_ret.2⟩⟩

/-- C79: the sender of the random OT receives nothing it could be harmed by. -/
theorem C79_sender (aes : Cipher) (fl : Nat → Nat → Nat) (c : Chans) (sec : Sec) (key seed : Nat → Block) (So : List (List T))
    (hg : ∀ o ∈ So, GoodSize fl o.length) :
    Robust [] (fun _ => True) (runSenderBatched aes fl c sec key seed So : PM (Msg T) _) := by
  intro l o _ _ h
  rcases (sender_reads aes c (good_map hg) h).2 with ⟨m, rfl⟩ | rfl <;> trivial

/-- C79: the receiver of the random OT is safe whatever the oblivious transfers return and whatever keys it gets. -/
theorem C79_receiver (aes : Cipher) (fl : Nat → Nat → Nat) (c : Chans) (Ro : List (List T)) (idx : List Int)
    (hg : ∀ o ∈ Ro, GoodSize fl o.length) :
    Robust [.keys] (fun _ => True) (runReceiverBatched aes fl c idx Ro : PM (Msg T) _) := by
  intro l o hl _ h
  by_cases h1 : Ro.length ≠ idx.length
  · unfold runReceiverBatched at h
    rw [if_pos h1] at h
    rw [h.of_ret.2]; trivial
  by_cases h2 : indicesOk (Ro.map List.length) idx = true
  · obtain ⟨ms, rfl, hidx⟩ : ∃ ms : List Nat, idx = ms.map (fun m : Nat => (m : Int)) ∧ IdxOk (Ro.map List.length) ms :=
      (matching_of_ok (by omega) h2).nat
    obtain ⟨m, rfl, hm⟩ := receiver_reads aes c hidx (good_map hg) h
    rcases hm hl.head.1 with ⟨-, rfl⟩ | ⟨keys, outs, -, rfl, -⟩ <;> trivial
  · unfold runReceiverBatched at h
    rw [if_neg h1, if_pos (by simpa using h2)] at h
    rw [h.of_ret.2]; trivial

/-- Sizes 6, 0 and 5; the indices do not matter. -/
example (key seed : Nat → Block) (idx : List Int) :
    Robust [] (fun _ => True) (runSenderBatched exCipher exFl ⟨0, 1, 2⟩ none key seed
      [List.replicate 6 0, [], List.replicate 5 (0 : ZZp (2 ^ 61 - 1))] : PM (Msg (ZZp (2 ^ 61 - 1))) _) ∧
    Robust [.keys] (fun _ => True) (runReceiverBatched exCipher exFl ⟨0, 1, 2⟩ idx
      [List.replicate 6 0, [], List.replicate 5 (0 : ZZp (2 ^ 61 - 1))] : PM (Msg (ZZp (2 ^ 61 - 1))) _) := by
  constructor
  · exact C79_sender _ _ _ _ _ _ _ (by
    intro o ho
    simp at ho
    rcases ho with rfl | rfl | rfl <;> constructor <;> simp [exFl])
  · exact C79_receiver _ _ _ _ _ (by
    intro o ho
    simp at ho
    rcases ho with rfl | rfl | rfl <;> constructor <;> simp [exFl])

end ROT

namespace SPFSS
open ROT GGM

/-- What the index provider does with a vector of any length: it is read at the position of every entry that is not empty. -/
theorem fixIndices_any (sums server : List T) (ms : List Nat) (outs : List (List T)) (h1 : sums.length = outs.length)
    (hidx : IdxOk (outs.map List.length) ms) :
    (∃ outs', fixIndices sums server (ms.map (fun m : Nat => (m : Int))) outs = .ok outs' ∧ outs'.map List.length = outs.map List.length ∧
      ∀ (j : Nat) row, outs[j]? = some row → row ≠ [] → j < server.length) ∨
    (∃ w, fixIndices sums server (ms.map (fun m : Nat => (m : Int))) outs = .ub w) ∧
      ∃ (j : Nat) (row : List T), outs[j]? = some row ∧ row ≠ [] ∧ server.length ≤ j := by
  unfold fixIndices
  have hlen : outs.length = ms.length := by simpa using hidx.1
  rcases Cuckoo.loop_or (f := fun j outs => do
    let row ← rd outs j
    if row.length = 0 then .ok outs else
    let idx ← rd (ms.map (fun m : Nat => (m : Int))) j
    let a ← rd sums j
    let b ← rd server j
    if idx < 0 then .ub "negative index" else
    let row' ← wr row idx.toNat (a + b)
    wr outs j row') (lo := 0) (n := sums.length) (s := outs)
    (fun i o => o.map List.length = outs.map List.length ∧ ∀ (j : Nat) row, j < i → outs[j]? = some row → row ≠ [] → j < server.length)
    (fun x => (∃ w, x = .ub w) ∧ ∃ (j : Nat) (row : List T), outs[j]? = some row ∧ row ≠ [] ∧ server.length ≤ j)
    (by rintro x ⟨⟨w, rfl⟩, h⟩ g; exact ⟨⟨w, rfl⟩, h⟩)
    ⟨rfl, by intro j row hj; omega⟩
    (by
      rintro i o _ hi ⟨hl, hI⟩
      have hi : i < outs.length := by omega
      have hlo : o.length = outs.length := by simpa using congrArg List.length hl
      have hrow : o[i].length = outs[i].length := by
        have := congrArg (fun l => l[i]?) hl
        simpa [hi, hlo] using this
      rw [rd_of_lt (by omega : i < o.length), Out.ok_bind]
      by_cases hz : o[i].length = 0
      · rw [if_pos hz]
        refine .inr ⟨_, rfl, hl, fun j row hj hr hne => ?_⟩
        by_cases e : j < i
        · exact hI j row e hr hne
        · have : j = i := by omega
          subst this
          rw [List.getElem?_eq_getElem hi] at hr
          cases hr
          exact absurd (List.eq_nil_of_length_eq_zero (by omega)) hne
      · rw [if_neg hz, rd_of_lt (by simp; omega : i < (ms.map (fun m : Nat => (m : Int))).length), Out.ok_bind,
          rd_of_lt (by omega : i < sums.length), Out.ok_bind]
        by_cases hb : i < server.length
        · have hlt := hidx.2 i outs[i].length ms[i] (by simp [hi]) (by simp) (by omega)
          rw [rd_of_lt hb, Out.ok_bind, if_neg (by simp), List.getElem_map, Int.toNat_natCast,
            wr_of_lt _ (by omega), Out.ok_bind, wr_of_lt _ (by omega)]
          refine .inr ⟨_, rfl, ?_, fun j row hj hr hne => ?_⟩
          · rw [← hl]
            apply List.ext_getElem?
            intro j
            simp only [List.getElem?_map, List.getElem?_set]
            by_cases e : i = j
            · subst e; simp [hlo, hi]
            · rw [if_neg e]
          · by_cases e : j < i
            · exact hI j row e hr hne
            · omega
        · left
          obtain ⟨w, hw⟩ : ∃ w, rd server i = (.ub w : Out T) := by
            unfold rd; rw [List.getElem?_eq_none (by omega)]; exact ⟨_, rfl⟩
          rw [hw]
          exact ⟨⟨w, rfl⟩, i, outs[i], List.getElem?_eq_getElem hi, fun e => hz (by rw [hrow, e]; rfl), by omega⟩) with h | ⟨s, h2, h3, h4⟩
  · exact .inr h
  · refine .inl ⟨s, h2, h3, fun j row hr hne => h4 j row ?_ hr hne⟩
    rw [List.getElem?_eq_some_iff] at hr
    obtain ⟨hj, -⟩ := hr
    omega

/-- The value provider receives nothing. -/
theorem value_reads (aes : Cipher) {fl : Nat → Nat → Nat} (c : Chans) {sec : Sec} {key seed : Nat → Block} {a : List T} {So : List (List T)}
    (hg : ∀ n ∈ So.map List.length, GoodSize fl n) {l : List (Msg T)} {o : Out (List (List T))}
    (h : Reads (α := Out (List (List T))) (runValueProviderBatched aes fl c sec key seed a So) l o) :
    l = [] ∧ ((∃ m, o = .err .invalidArgument m) ∨ ∃ outs, o = .ok outs ∧ outs.map List.length = So.map List.length) := by
  unfold runValueProviderBatched at h
  by_cases hl : a.length ≠ So.length
  · rw [if_pos hl] at h
    exact ⟨h.of_ret.1, .inl ⟨_, h.of_ret.2⟩⟩
  · rw [if_neg hl] at h
    obtain ⟨l1, l2, o1, rfl, h1, h2⟩ := Reads.of_bind h
    obtain ⟨rfl, ⟨m, rfl⟩ | rfl⟩ := sender_reads aes c hg h1
    · exact ⟨h2.of_ret.1, .inl ⟨_, h2.of_ret.2⟩⟩
    · dsimp only at h2
      rw [sumNegateAll_eq _ _ (by simp [senderOut]; omega), PM.lift_ok_bind] at h2
      cases h2 with
      | send _ _ _ _ _ h2 =>
        refine ⟨h2.of_ret.1, .inr ⟨_, h2.of_ret.2, ?_⟩⟩
        apply List.ext_getElem?
        intro i
        simp only [senderOut, List.getElem?_map, List.getElem?_mapIdx, Option.map_map]
        cases So[i]? <;> simp

/-- C79: the value provider receives nothing it could be harmed by. -/
theorem C79_value (aes : Cipher) (fl : Nat → Nat → Nat) (c : Chans) (sec : Sec) (key seed : Nat → Block) (a : List T) (So : List (List T))
    (hg : ∀ o ∈ So, GoodSize fl o.length) :
    Robust [] (fun _ => True) (runValueProviderBatched aes fl c sec key seed a So : PM (Msg T) _) := by
  intro l o _ _ h
  rcases (value_reads aes c (good_map hg) h).2 with ⟨m, rfl⟩ | ⟨_, rfl, -⟩ <;> trivial

/-- The index provider with matching arguments, whatever it receives. -/
theorem index_reads (aes : Cipher) {fl : Nat → Nat → Nat} (c : Chans) {b : List T} {Ro : List (List T)} {ms : List Nat}
    (hb : b.length = Ro.length) (hidx : IdxOk (Ro.map List.length) ms) (hg : ∀ n ∈ Ro.map List.length, GoodSize fl n)
    {l : List (Msg T)} {o : Out (List (List T))}
    (h : Reads (α := Out (List (List T))) (runIndexProviderBatched aes fl c b (ms.map (fun m : Nat => (m : Int))) Ro) l o)
    (hl : AnswersAll [.keys, .vector] l) :
    (.closed ∈ l ∧ o = .throws "connection closed") ∨ ∃ keys v, l = [.blocks keys, .elems v] ∧
      ((∃ outs, o = .ok outs ∧ outs.map List.length = Ro.map List.length ∧
          ∀ (j : Nat) row, Ro[j]? = some row → row ≠ [] → j < v.length) ∨
        (∃ w, o = .ub w) ∧ ∃ (j : Nat) (row : List T), Ro[j]? = some row ∧ row ≠ [] ∧ v.length ≤ j) := by
  have hl1 : Ro.length = ms.length := by simpa using hidx.1
  unfold runIndexProviderBatched at h
  rw [if_neg (by simp; omega)] at h
  obtain ⟨l1, l2, o1, rfl, h1, h2⟩ := Reads.of_bind h
  obtain ⟨m, rfl, hm⟩ := receiver_reads aes c hidx hg h1
  rcases hm hl.head.1 with ⟨rfl, rfl⟩ | ⟨keys, outs, rfl, rfl, hlen⟩
  · exact .inl ⟨by simp, h2.of_ret.2⟩
  · have hlo : outs.length = Ro.length := by simpa using congrArg List.length hlen
    dsimp only at h2
    rw [subOthersAll_eq _ _ _ (by omega) (by omega), PM.lift_ok_bind, PM.recv_bind] at h2
    cases h2 with
    | recv _ _ m l2 _ h2 =>
      have ha := hl.head.2.head.1
      cases m with
      | closed => exact .inl ⟨by simp, h2.of_ret.2⟩
      | elems v =>
        right
        simp only [PM.unElems, PM.lift_ok_bind] at h2
        obtain ⟨rfl, rfl⟩ := h2.of_ret
        have conv : ∀ (j : Nat) (row : List T), Ro[j]? = some row → row ≠ [] → ∃ row', outs[j]? = some row' ∧ row' ≠ [] := by
          intro j row hr hne
          have := congrArg (fun l => l[j]?) hlen
          simp only [List.getElem?_map, hr, Option.map_some, Option.map_eq_some_iff] at this
          obtain ⟨row', h1, h2⟩ := this
          refine ⟨row', h1, fun e => hne (List.eq_nil_of_length_eq_zero ?_)⟩
          rw [← h2, e]; rfl
        have conv' : ∀ (j : Nat) (row : List T), outs[j]? = some row → row ≠ [] → ∃ row', Ro[j]? = some row' ∧ row' ≠ [] := by
          intro j row hr hne
          have := congrArg (fun l => l[j]?) hlen.symm
          simp only [List.getElem?_map, hr, Option.map_some, Option.map_eq_some_iff] at this
          obtain ⟨row', h1, h2⟩ := this
          refine ⟨row', h1, fun e => hne (List.eq_nil_of_length_eq_zero ?_)⟩
          rw [← h2, e]; rfl
        refine ⟨keys, v, rfl, ?_⟩
        rcases fixIndices_any (b.mapIdx (fun j s => s - sumExcept ((outs[j]?).getD []) ((ms[j]?).getD 0))) v ms outs
          (by simp; omega) (by rw [hlen]; exact hidx) with ⟨outs', e, h3, h4⟩ | ⟨⟨w, e⟩, j, row, h3, h4, h5⟩
        · left
          refine ⟨outs', e, h3.trans hlen, fun j row hr hne => ?_⟩
          obtain ⟨row', h5, h6⟩ := conv j row hr hne
          exact h4 j row' h5 h6
        · right
          obtain ⟨row', h6, h7⟩ := conv' j row h3 h4
          exact ⟨⟨w, e⟩, j, row', h6, h7, h5⟩
      | _ => exact absurd ha id

/-- Any two keys and any vector let the index provider return. -/
theorem index_reads_exists (aes : Cipher) {fl : Nat → Nat → Nat} (c : Chans) {b : List T} {Ro : List (List T)} {ms : List Nat}
    (hb : b.length = Ro.length) (hidx : IdxOk (Ro.map List.length) ms) (hg : ∀ n ∈ Ro.map List.length, GoodSize fl n)
    {keys : List Block} (hk : keys.length = 2) (v : List T) :
    ∃ o, Reads (α := Out (List (List T))) (runIndexProviderBatched aes fl c b (ms.map (fun m : Nat => (m : Int))) Ro)
      [.blocks keys, .elems v] o := by
  have hl1 : Ro.length = ms.length := by simpa using hidx.1
  obtain ⟨outs, h1, hlen⟩ := receiver_reads_ok (T := T) aes c hidx hg hk
  have hlo : outs.length = Ro.length := by simpa using congrArg List.length hlen
  unfold runIndexProviderBatched
  rw [if_neg (by simp; omega)]
  refine ⟨fixIndices (b.mapIdx (fun j s => s - sumExcept ((outs[j]?).getD []) ((ms[j]?).getD 0))) v (ms.map (fun m : Nat => (m : Int))) outs,
    Reads.bind (M := Msg T) (α := Out (List (List T))) (β := Out (List (List T))) (l1 := [.blocks keys]) (l2 := [.elems v]) h1 ?_⟩
  dsimp only
  rw [subOthersAll_eq _ _ _ (by omega) (by omega), PM.lift_ok_bind, PM.recv_bind]
  exact .recv _ _ _ _ _ (.ret _)

omit [Scalar T] in
theorem answers (keys : List Block) (hk : keys.length = 2) (v : List T) : AnswersAll [.keys, .vector] [Msg.blocks keys, .elems v] := by
  intro i r m h1 h2
  match i with
  | 0 => cases h1; cases h2; exact hk
  | 1 => cases h1; cases h2; trivial
  | _ + 2 => cases h1

/-- C79 (partial): the index provider is safe, whatever the peer sends, if the vector it receives is at least as long as the
    batch. Missing: this condition, which the code does not check; without it the claim is false, see below. -/
theorem C79_index_partial (aes : Cipher) (fl : Nat → Nat → Nat) (c : Chans) (b : List T) (idx : List Int) (Ro : List (List T))
    (hg : ∀ o ∈ Ro, GoodSize fl o.length) :
    Robust [.keys, .vector] (LongEnough 1 Ro.length) (runIndexProviderBatched aes fl c b idx Ro : PM (Msg T) _) := by
  intro l o hl hlong h
  by_cases hb : b.length ≠ Ro.length ∨ b.length ≠ idx.length
  · unfold runIndexProviderBatched at h
    rw [if_pos hb] at h
    rw [h.of_ret.2]; trivial
  by_cases h2 : indicesOk (Ro.map List.length) idx = true
  · obtain ⟨ms, rfl, hidx⟩ := (matching_of_ok (by omega) h2).nat
    rcases index_reads aes c (by omega) hidx (good_map hg) h hl with ⟨-, rfl⟩ | ⟨keys, v, rfl, ⟨outs, rfl, -, -⟩ | ⟨-, j, row, h3, -, h5⟩⟩
    · trivial
    · trivial
    · rw [List.getElem?_eq_some_iff] at h3
      obtain ⟨hj, -⟩ := h3
      have := hlong v rfl
      omega
  · unfold runIndexProviderBatched runReceiverBatched at h
    rw [if_neg hb, if_neg (by omega), if_pos (by simpa using h2)] at h
    rw [h.of_ret.2]; trivial

/-- C79 is false of the code: a peer that sends too short a vector makes the index provider read past its end. This happens
    exactly if there is an entry that is not empty at or after the end of the vector. -/
theorem C79_index_negation (aes : Cipher) (fl : Nat → Nat → Nat) (c : Chans) (b : List T) (idx : List Int) (Ro : List (List T))
    (hg : ∀ o ∈ Ro, GoodSize fl o.length) (h : Matching Ro Ro idx) (hb : b.length = Ro.length) (keys : List Block)
    (hk : keys.length = 2) (v : List T) :
    ∃ o, Reads (α := Out (List (List T))) (runIndexProviderBatched aes fl c b idx Ro) [.blocks keys, .elems v] o ∧
      (¬ o.NoUB ↔ ∃ (j : Nat) (row : List T), Ro[j]? = some row ∧ row ≠ [] ∧ v.length ≤ j) := by
  obtain ⟨ms, rfl, hidx⟩ := h.nat
  obtain ⟨o, ho⟩ := index_reads_exists aes c hb hidx (good_map hg) hk v
  refine ⟨o, ho, ?_⟩
  rcases index_reads aes c hb hidx (good_map hg) ho (answers keys hk v) with ⟨e, -⟩ | ⟨keys', v', e, h1⟩
  · simp at e
  · cases e
    rcases h1 with ⟨outs, rfl, -, h4⟩ | ⟨⟨w, rfl⟩, h5⟩
    · refine ⟨fun hn => absurd trivial hn, ?_⟩
      rintro ⟨j, row, hr, hne, hle⟩
      have := h4 j row hr hne
      omega
    · exact ⟨fun _ => h5, fun _ hn => hn⟩

/-- Sizes 6, 0 and 5: a peer that sends two elements instead of three. -/
example (keys : List Block) (hk : keys.length = 2) (a b : ZZp (2 ^ 61 - 1)) :
    ∃ o, Reads (α := Out (List (List (ZZp (2 ^ 61 - 1))))) (runIndexProviderBatched exCipher exFl ⟨0, 1, 2⟩ [11, 12, 13] [4, 3, 0]
      [List.replicate 6 0, [], List.replicate 5 (0 : ZZp (2 ^ 61 - 1))]) [.blocks keys, .elems [a, b]] o ∧ ¬ o.NoUB := by
  obtain ⟨o, h1, h2⟩ := C79_index_negation (T := ZZp (2 ^ 61 - 1)) exCipher exFl ⟨0, 1, 2⟩ [11, 12, 13] [4, 3, 0]
    [List.replicate 6 0, [], List.replicate 5 (0 : ZZp (2 ^ 61 - 1))] (by
    intro o ho
    simp at ho
    rcases ho with rfl | rfl | rfl <;> constructor <;> simp [exFl])
    ⟨rfl, rfl, by
      intro i o j ho hj
      match i with
      | 0 => simp at ho hj; subst ho; subst hj; simp
      | 1 => simp at ho hj; subst ho; subst hj; simp
      | 2 => simp at ho hj; subst ho; subst hj; simp
      | i + 3 => simp at ho⟩ rfl keys hk [a, b]
  exact ⟨o, h1, h2.2 ⟨2, _, rfl, by simp, by simp⟩⟩

/-- Three elements are enough. -/
example (key seed : Nat → Block) :
    Robust [] (fun _ => True) (runValueProviderBatched exCipher exFl ⟨0, 1, 2⟩ none key seed [5, 6, 7]
      [List.replicate 6 0, [], List.replicate 5 (0 : ZZp (2 ^ 61 - 1))] : PM (Msg (ZZp (2 ^ 61 - 1))) _) ∧
    Robust [.keys, .vector] (LongEnough 1 3) (runIndexProviderBatched exCipher exFl ⟨0, 1, 2⟩ [11, 12, 13] [4, 3, 0]
      [List.replicate 6 0, [], List.replicate 5 (0 : ZZp (2 ^ 61 - 1))] : PM (Msg (ZZp (2 ^ 61 - 1))) _) := by
  constructor
  · exact C79_value _ _ _ _ _ _ _ _ (by
    intro o ho
    simp at ho
    rcases ho with rfl | rfl | rfl <;> constructor <;> simp [exFl])
  · exact C79_index_partial _ _ _ _ _ [List.replicate 6 0, [], List.replicate 5 (0 : ZZp (2 ^ 61 - 1))] (by
    intro o ho
    simp at ho
    rcases ho with rfl | rfl | rfl <;> constructor <;> simp [exFl])

end SPFSS

namespace MPFSS
open Cuckoo ROT GGM

theorem scatter_safe (st : State) {m : Nat} (hB : st.buckets.length < 2 ^ 31) (hlt : ∀ b ∈ st.buckets, ∀ k ∈ b, k < m)
    {o : Out (List (List T))} (ho : ∀ bo, o = .ok bo → bo.map List.length = st.buckets.map List.length) :
    (finish st m o).status.NoUB ↔ o.NoUB := by
  cases o with
  | ok bo =>
    unfold finish
    dsimp only
    rw [vec_zero, scatter_eq hB (ho bo rfl) hlt]
    exact Iff.rfl
  | _ => exact Iff.rfl

theorem hashIndices_safe {h : Hasher} {fl : Nat → Nat → Nat} {t m : Nat} (hs : Sized h fl t m) (indices : List Int) :
    (hashIndices h indices (h.optimal t)).NoUB := by
  have hn := hs.numHash
  have h1 := hs.buckets_pos
  have h2 := hs.buckets_lt
  have key : (hashCuckoo h (indices.map indexBlock) (h.optimal t)).NoUB := by
    by_cases hle : ((indices.map indexBlock).length : Int) ≤ h.optimal t
    · by_cases hb : h.tooManyBits (indices.map indexBlock).length (h.optimal t).toNat = false
      · rcases hashCuckoo_spec h (by omega) h1 (by omega) _ hle hb with hi | ⟨bk, hbk, -, -⟩
        · rw [hi]; trivial
        · rw [hbk]; trivial
      · unfold hashCuckoo
        rw [if_neg (by omega), if_neg (by omega), if_neg (by omega), if_pos (by simpa using hb)]
        trivial
    · unfold hashCuckoo
      rw [if_neg (by omega), if_neg (by omega), if_pos (by omega)]
      trivial
  unfold hashIndices
  split
  · split <;> trivial
  · exact key

/-- Facts about the buckets of a call. -/
structure BucketFacts (h : Hasher) (fl : Nat → Nat → Nat) (t m : Nat) : Prop where
  lt : (table h t m).length < 2 ^ 31
  int : toInt32 (table h t m).length = h.optimal t
  mem : ∀ b ∈ table h t m, ∀ k ∈ b, k < m
  lens : ((table h t m).map (fun b => List.replicate b.length (0 : T))).map List.length = (table h t m).map List.length
  good : ∀ n ∈ ((table h t m).map (fun b => List.replicate b.length (0 : T))).map List.length, GoodSize fl n

theorem bucketFacts {h : Hasher} {fl : Nat → Nat → Nat} {t m : Nat} (hs : Sized h fl t m) : BucketFacts (T := T) h fl t m := by
  have hb1 := hs.buckets_pos
  have hb2 := hs.buckets_lt
  have hTl : (table h t m).length < 2 ^ 31 := by rw [table_length]; omega
  have hlens : ((table h t m).map (fun b => List.replicate b.length (0 : T))).map List.length = (table h t m).map List.length := by
    simp
  refine ⟨hTl, by rw [toInt32_eq hTl, table_length]; omega, ?_, hlens, ?_⟩
  · intro b hb k hk
    obtain ⟨j, hj⟩ := List.mem_iff_getElem?.1 hb
    exact (((table_mem hj).2 k).1 hk).1
  · rw [hlens]
    intro n hn
    refine hs.trees n ?_
    rw [← table_total (m := m) hb1]
    exact le_sum_of_mem hn

/-- The value provider, whatever it receives. -/
theorem value_reads (aes : Cipher) {fl : Nat → Nat → Nat} (c : Chans) {sec : Sec} {key seed : Nat → Block} {h : Hasher} {t m : Nat}
    (hs : Sized h fl t m) {thr : Nat → List Nat} (ht : Threads thr) {st : State} (hV : Coherent h st) {x : T} {w out : List T}
    (ho : out.length = m) {l : List (Msg T)} {r : Res T}
    (hr : Reads (runValueProviderVectorOLE aes fl c sec key seed thr st x t w out) l r) (hl : AnswersAll [.vector] l) :
    (l = [.closed] ∧ r.status.NoUB) ∨ ∃ v, l = [.elems v] ∧ (r.status.NoUB ↔ v.length = w.length) := by
  have hpos := hs.pos
  have B := bucketFacts (T := T) hs
  unfold runValueProviderVectorOLE at hr
  rw [if_neg (by omega), ho, updateBuckets_ok ht hV (computeBuckets_eq hs ht)] at hr
  cases hr with
  | recv _ _ mm l _ hr =>
    have ha := hl.head.1
    cases mm with
    | closed =>
      obtain ⟨rfl, rfl⟩ := Reads.of_ret hr
      exact .inl ⟨rfl, trivial⟩
    | elems v =>
      right
      by_cases hv : v.length = w.length
      · have hsh : (PM.unElems (.elems v) >>= fun yMasked => valueShares x yMasked w) = .ok (shares x v w) := by
          unfold PM.unElems valueShares
          rw [Out.ok_bind, if_neg (by omega)]
          rfl
        beta_reduce at hr
        rw [hsh] at hr
        dsimp only at hr
        rw [emptyOutputs_eq B.lt] at hr
        obtain ⟨l1, l2, o, rfl, h1, h2⟩ := Reads.of_bind hr
        obtain ⟨rfl, h3⟩ := SPFSS.value_reads aes c B.good h1
        obtain ⟨rfl, rfl⟩ := h2.of_ret
        refine ⟨v, rfl, iff_of_true ?_ hv⟩
        rw [scatter_safe ⟨h, table h t m, some m, some t⟩ B.lt B.mem (by
          rintro bo rfl
          rcases h3 with ⟨_, e⟩ | ⟨_, e, h4⟩
          · cases e
          · cases e; rw [h4, B.lens])]
        rcases h3 with ⟨_, rfl⟩ | ⟨_, rfl, -⟩ <;> trivial
      · have hsh : (PM.unElems (.elems v) >>= fun yMasked => valueShares x yMasked w) = .ub "Eigen size mismatch" := by
          unfold PM.unElems valueShares
          rw [Out.ok_bind, if_pos (by omega)]
        beta_reduce at hr
        rw [hsh] at hr
        obtain ⟨rfl, rfl⟩ := Reads.of_ret hr
        exact ⟨v, rfl, iff_of_false id hv⟩
    | _ => exact absurd ha id

/-- C79 (partial): the value provider is safe, whatever the peer sends, if the vector it receives has as many elements as its
    own `w`. Missing: this condition, which the code does not check; without it the claim is false, see below. -/
theorem C79_mpfss_value_partial (aes : Cipher) (fl : Nat → Nat → Nat) (c : Chans) (sec : Sec) (key seed : Nat → Block) (h : Hasher) (t m : Nat)
    (hs : Sized h fl t m) (thr : Nat → List Nat) (ht : Threads thr) (st : State) (hst : Reached T h st) (x : T) (w out : List T)
    (ho : out.length = m) (l : List (Msg T)) (r : Res T) (hl : AnswersAll [.vector] l) (hq : Exactly 0 w.length l)
    (hr : Reads (runValueProviderVectorOLE aes fl c sec key seed thr st x t w out) l r) : r.status.NoUB := by
  rcases value_reads aes c hs ht hst.coherent ho hr hl with ⟨-, h1⟩ | ⟨v, rfl, h1⟩
  · exact h1
  · exact h1.2 (hq v rfl)

/-- C79 is false of the code: a peer that sends a vector of any other length makes the value provider combine vectors of different
    lengths, an assertion failure or a read out of bounds in Eigen. -/
theorem C79_mpfss_value_negation (aes : Cipher) (fl : Nat → Nat → Nat) (c : Chans) (sec : Sec) (key seed : Nat → Block) (h : Hasher) (t m : Nat)
    (hs : Sized h fl t m) (thr : Nat → List Nat) (ht : Threads thr) (st : State) (hst : Reached T h st) (x : T) (w out v : List T)
    (ho : out.length = m) (hv : v.length ≠ w.length) :
    ∃ r, Reads (runValueProviderVectorOLE aes fl c sec key seed thr st x t w out) [.elems v] r ∧ ¬ r.status.NoUB := by
  have hpos := hs.pos
  unfold runValueProviderVectorOLE
  rw [if_neg (by omega), ho, updateBuckets_ok ht hst.coherent (computeBuckets_eq hs ht)]
  have hsh : (PM.unElems (.elems v) >>= fun yMasked => valueShares x yMasked w) = .ub "Eigen size mismatch" := by
    unfold PM.unElems valueShares
    rw [Out.ok_bind, if_pos hv]
  refine ⟨⟨.ub "Eigen size mismatch", out, ⟨h, table h t m, some m, some t⟩⟩, .recv _ _ _ _ _ ?_, id⟩
  rw [hsh]
  exact .ret _

/-- The index provider, whatever it receives. -/
theorem index_form (aes : Cipher) {fl : Nat → Nat → Nat} (c : Chans) {h : Hasher} {t m : Nat}
    (hs : Sized h fl t m) {thr : Nat → List Nat} (ht : Threads thr) {st : State} (hI : Coherent h st) {y u v out : List T}
    {indices hashed : List Int} (hy : y.length = t) (hi : indices.length = t) (hr : InRange m indices) (ho : out.length = m)
    (hu : (u.length : Int) = h.optimal t) (hok : hashCuckoo h (indices.map indexBlock) (h.optimal t) = .ok hashed) :
    runIndexProviderVectorOLE aes fl c thr st y indices u v out =
      .send c.main (.elems (yMsg y u hashed)) (Proc.bind (SPFSS.runIndexProviderBatched aes fl c v
        ((poss h t m indices hashed).map (fun m : Nat => (m : Int))) ((table h t m).map (fun b => List.replicate b.length (0 : T))))
        (fun r => .ret (finish ⟨h, table h t m, some m, some t⟩ m r))) := by
  have hpos := hs.pos
  have hle := hs.le
  have hnum := hs.numHash
  have hsz := hs.size
  have hb1 := hs.buckets_pos
  have hm : m < 2 ^ 31 := by rcases hnum with e | e <;> rw [e] at hsz <;> omega
  have ht31 : t < 2 ^ 31 := by omega
  have B := bucketFacts (T := T) hs
  have H := (hashedOk hs hi hr hok).toHashedLen
  unfold runIndexProviderVectorOLE
  rw [if_neg (by omega), if_neg (by omega), if_neg (by omega), if_neg (by
    rw [List.any_eq_true]
    rintro ⟨i, hi1, hi2⟩
    have := hr i (List.mem_of_mem_take hi1)
    simp only [decide_eq_true_eq] at hi2
    omega), ho, hy, toInt32_eq ht31, updateBuckets_ok ht hI (computeBuckets_eq hs ht)]
  have hmy : maskedY ⟨h, table h t m, some m, some t⟩ y indices u = .ok (hashed, yMsg y u hashed) := by
    unfold maskedY
    dsimp only
    rw [B.int]
    have e1 : hashIndices h indices (h.optimal t) = .ok hashed := by
      unfold hashIndices
      rw [hok]
    have e2 := permuteY_eq (y := y) (hashed := hashed) (by rw [hy]; exact H.range)
    rw [show ((hashed.length : Nat) : Int) = h.optimal t by rw [H.len]; omega] at e2
    rw [e1, Out.ok_bind, e2, Out.ok_bind]
    unfold addMask
    rw [if_neg (by simp [H.len]; omega)]
    rfl
  dsimp only
  rw [hmy]
  dsimp only
  have hiib := indexInBucket_eq (B := table h t m) (indices := indices) (hashed := hashed) (by rw [table_length, H.len]) (by rw [hi]; exact H.range)
  rw [show ((hashed.length : Nat) : Int) = toInt32 (table h t m).length by rw [H.len, B.int]; omega] at hiib
  rw [hiib, emptyOutputs_eq B.lt]
  rfl

/-- C79 (partial): the index provider is safe, whatever the peer sends, if the vector it receives has at least one element per
    bucket. Missing: this condition, which the code does not check; without it the claim is false, see below. -/
theorem C79_mpfss_index_partial (aes : Cipher) (fl : Nat → Nat → Nat) (c : Chans) (h : Hasher) (t m : Nat)
    (hs : Sized h fl t m) (thr : Nat → List Nat) (ht : Threads thr) (st : State) (hst : Reached T h st) (y u v out : List T)
    (indices : List Int) (hy : y.length = t) (hi : indices.length = t) (hin : InRange m indices) (ho : out.length = m)
    (hu : (u.length : Int) = h.optimal t) (l : List (Msg T)) (r : Res T) (hl : AnswersAll [.keys, .vector] l)
    (hq : LongEnough 1 (h.optimal t).toNat l) (hr : Reads (runIndexProviderVectorOLE aes fl c thr st y indices u v out) l r) :
    r.status.NoUB := by
  have B := bucketFacts (T := T) hs
  by_cases hok : ∃ hashed, hashCuckoo h (indices.map indexBlock) (h.optimal t) = .ok hashed
  · obtain ⟨hashed, hok⟩ := hok
    have H := hashedOk hs hi hin hok
    rw [index_form aes c hs ht hst.coherent hy hi hin ho hu hok] at hr
    cases hr with
    | send _ _ _ _ _ hr =>
      obtain ⟨l1, l2, o, rfl, h1, h2⟩ := Reads.of_bind hr
      obtain ⟨rfl, rfl⟩ := h2.of_ret
      rw [List.append_nil] at hl hq
      by_cases hv : v.length = ((table h t m).map (fun b => List.replicate b.length (0 : T))).length
      · have h3 := SPFSS.index_reads aes c hv (by rw [B.lens]; exact poss_idxOk H) B.good h1 hl
        rw [scatter_safe ⟨h, table h t m, some m, some t⟩ B.lt B.mem (by
          rintro bo rfl
          rcases h3 with ⟨-, e⟩ | ⟨_, _, -, ⟨outs, e, h4, -⟩ | ⟨⟨w, e⟩, -⟩⟩
          · cases e
          · cases e; rw [h4, B.lens]
          · cases e)]
        rcases h3 with ⟨-, rfl⟩ | ⟨_, v2, rfl, ⟨outs, rfl, -, -⟩ | ⟨-, j, row, h4, -, h5⟩⟩
        · trivial
        · trivial
        · rw [List.getElem?_eq_some_iff] at h4
          obtain ⟨hj, -⟩ := h4
          have := hq v2 rfl
          simp only [List.length_map, table_length] at hj
          omega
      · unfold SPFSS.runIndexProviderBatched at h1
        rw [if_pos (.inl hv)] at h1
        obtain ⟨-, rfl⟩ := h1.of_ret
        trivial
  · obtain ⟨r', h1, h2, -, -⟩ := index_fails (aes := aes) (c := c) (u := u) (v := v) hs ht hst.coherent hy hi (fun i hi => le_of_lt (hin i hi).2) ho hok
    rw [h1] at hr
    rw [hr.of_ret.2, h2]
    have := hashIndices_safe hs indices
    cases e : hashIndices h indices (h.optimal t) with
    | ub w => rw [e] at this; exact this.elim
    | _ => trivial

/-- C79 is false of the code: if cuckoo hashing succeeds, a peer that sends a vector that ends at or before a bucket that is not
    empty makes the index provider read past its end. -/
theorem C79_mpfss_index_negation (aes : Cipher) (fl : Nat → Nat → Nat) (c : Chans) (h : Hasher) (t m : Nat)
    (hs : Sized h fl t m) (thr : Nat → List Nat) (ht : Threads thr) (st : State) (hst : Reached T h st) (y u v out : List T)
    (indices : List Int) (hy : y.length = t) (hi : indices.length = t) (hin : InRange m indices) (ho : out.length = m)
    (hu : (u.length : Int) = h.optimal t) (hv : (v.length : Int) = h.optimal t)
    (hok : ∃ hashed, hashCuckoo h (indices.map indexBlock) (h.optimal t) = .ok hashed) (keys : List Block) (hk : keys.length = 2) (s : List T)
    (hshort : ∃ (j : Nat) (b : List Nat), (table h t m)[j]? = some b ∧ b ≠ [] ∧ s.length ≤ j) :
    ∃ r, Reads (runIndexProviderVectorOLE aes fl c thr st y indices u v out) [.blocks keys, .elems s] r ∧ ¬ r.status.NoUB := by
  have B := bucketFacts (T := T) hs
  have hb1 := hs.buckets_pos
  obtain ⟨hashed, hok⟩ := hok
  have H := hashedOk hs hi hin hok
  rw [index_form aes c hs ht hst.coherent hy hi hin ho hu hok]
  have hv' : v.length = ((table h t m).map (fun b => List.replicate b.length (0 : T))).length := by
    rw [List.length_map, table_length]; omega
  obtain ⟨o, h1⟩ := SPFSS.index_reads_exists aes c hv' (by rw [B.lens]; exact poss_idxOk H) B.good hk s
  have h3 := SPFSS.index_reads aes c hv' (by rw [B.lens]; exact poss_idxOk H) B.good h1 (SPFSS.answers keys hk s)
  obtain ⟨j, b, h4, h5, h6⟩ := hshort
  refine ⟨_, .send _ _ _ _ _ (Reads.bind (l2 := []) h1 (.ret _)), ?_⟩
  rcases h3 with ⟨e, -⟩ | ⟨_, v2, e, ⟨outs, rfl, -, h7⟩ | ⟨⟨w, rfl⟩, -⟩⟩
  · simp at e
  · cases e
    have := h7 j (List.replicate b.length 0) (by rw [List.getElem?_map, h4]; rfl) (by simpa using h5)
    omega
  · exact id

/-- Three points in a vector of length 12, 30 buckets: a peer that sends nothing in place of a vector. -/
example : (∃ r, Reads (runValueProviderVectorOLE exCipher exFl6 ⟨0, 1, 2⟩ none (fun j => j) (fun i => i + 7) exThr (State.new exH)
        (77 : BitVec 64) (3 : Nat) (exW 30 77) (List.replicate 12 9)) [.elems []] r ∧ ¬ r.status.NoUB) ∧
    (∃ r, Reads (runIndexProviderVectorOLE exCipher exFl6 ⟨0, 1, 2⟩ exThr (State.new exH) [10, 20, (30 : BitVec 64)] [5, 3, 8] (exU 30) (exV 30)
        (List.replicate 12 8)) [.blocks [1, 2], .elems []] r ∧ ¬ r.status.NoUB) := by
  have hs := (exH_supported (t := 3) (m := 12) (by omega) (by omega) (by omega) none).toSized
  have A := exArgs (t := 3) (indices := [5, 3, 8]) (y := [10, 20, 30]) (m := 12) (by omega) 77 rfl rfl
  exact ⟨C79_mpfss_value_negation _ _ _ _ _ _ exH 3 12 hs exThr exThr_threads _ .new _ _ _ _ A.len_outV (by simp [exW, exU, exV]),
    C79_mpfss_index_negation _ _ _ exH 3 12 hs exThr exThr_threads _ .new _ _ _ _ _ A.len_y A.len_indices
      (by intro i hi; simp at hi; omega) A.len_outI A.len_u A.len_v
      ⟨[-1, -1, -1, 2, -1, -1, -1, -1, -1, -1, -1, 1, -1, -1, -1, -1, -1, 0, -1, -1, -1, -1, -1, -1, -1, -1, -1, -1, -1, -1],
        by decide +kernel⟩ _ rfl _
      ⟨3, [0, 5, 5, 8], by decide +kernel, by simp, by simp⟩⟩

end MPFSS

end DVO
