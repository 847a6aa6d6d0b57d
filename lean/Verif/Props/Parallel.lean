/-
C51: the results of the OpenMP loops do not depend on the schedule.
-/
import Verif.Proofs.Parallel
import Verif.Proofs.ROT2

namespace DVO.Par
open GGM ROT
variable {T : Type} [Scalar T]

theorem getList {α : Type} {l : List α} {i : Nat} (h : i < l.length) : ((Mem.list α).get l i).isSome := by
  show (l[i]?).isSome
  rw [List.getElem?_eq_getElem h]
  rfl

theorem getPair {α β : Type} {s : List α × List β} {i : Nat} (h : i < s.1.length) (h' : i < s.2.length) :
    ((Mem.pair α β).get s i).isSome := by
  simp [Mem.pair, List.getElem?_eq_getElem h, List.getElem?_eq_getElem h']

theorem agree_bot {σ : Type} {x y : Out σ} (h : ∀ s, x ≠ .ok s) (h' : ∀ s, y ≠ .ok s) : Agree x y :=
  fun s => ⟨fun e => absurd e (h s), fun e => absurd e (h' s)⟩

/-- C51, hashing: `CuckooHasher::Hash`. -/
theorem C51_hash (h : Cuckoo.Hasher) (inputs : List Block) {numBuckets : Int} (hb : 0 < numBuckets) {t : Trace (List (List Nat))}
    (ht : Schedule (Mem.list (List Nat)) inputs.length (hashBody h numBuckets inputs)
      (List.replicate inputs.length (List.replicate h.numHash 0)) t) :
    Agree (exec t (List.replicate inputs.length (List.replicate h.numHash 0))) (Cuckoo.hash h inputs numBuckets) := by
  refine (schedule ht (fun i hi => getList (by simpa using hi))).trans ?_
  unfold Cuckoo.hash
  rw [if_neg (by omega)]
  apply loop_agree
  intro i s _ _
  refine (list_upd i _ s).trans ?_
  unfold hashBody
  cases rd inputs i with
  | ok x => exact Agree.refl _
  | _ =>
    refine agree_bot ?_ (fun s e => by cases e)
    intro s' e
    obtain ⟨a, _, e2⟩ := Out.bind_eq_ok.1 e
    cases e2

/-- C51, creation of the sender's trees. -/
theorem C51_create (aes : Cipher) (fl : Nat → Nat → Nat) (keys : List Block) (seed : Nat → Block) (numLeaves : List Nat)
    {t : Trace (List (Option (Out Tree)))}
    (ht : Schedule (Mem.list (Option (Out Tree))) numLeaves.length (createBody aes fl keys seed numLeaves)
      (List.replicate numLeaves.length none) t) :
    exec t (List.replicate numLeaves.length none) = .ok (createTrees aes fl keys seed numLeaves) := by
  refine (schedule ht (fun i hi => getList (by simpa using hi)) _).2 ?_
  have hl : loop (fun i => (Mem.list (Option (Out Tree))).upd i (createBody aes fl keys seed numLeaves i)) 0 numLeaves.length
      (List.replicate numLeaves.length none) = .ok ((List.replicate numLeaves.length none).mapIdx
        (fun i (_ : Option (Out Tree)) => if (numLeaves[i]?.getD 0) = 0 then none else some (create aes fl ((numLeaves[i]?.getD 0 : Nat) : Int) (seed i) keys))) := by
    apply loop_part _ (by simp)
    intro i x hx
    have hi : i < numLeaves.length := by
      have := (List.getElem?_eq_some_iff.1 hx).1
      simpa using this
    have hxn : x = none := by simpa [hi] using hx.symm
    subst hxn
    refine (list_upd i _ _ _).2 ?_
    rw [rd_part _ hx, Out.ok_bind]
    unfold createBody
    rw [rd_of_lt hi, Out.ok_bind]
    have hw := wr_part (fun i (_ : Option (Out Tree)) => if (numLeaves[i]?.getD 0) = 0 then none else some (create aes fl ((numLeaves[i]?.getD 0 : Nat) : Int) (seed i) keys)) hx
    rw [List.getElem?_eq_getElem hi] at hw
    simp only [Option.getD_some] at hw
    rw [← hw]
    by_cases e : numLeaves[i] = 0
    · simp [e]
    · simp [e]
  rw [hl]
  congr 1
  unfold createTrees
  apply List.ext_getElem?
  intro i
  rw [List.getElem?_mapIdx, List.getElem?_mapIdx]
  by_cases hi : i < numLeaves.length
  · simp [hi]
  · simp [hi]

/-- C51, unpacking of the leaves, for both roles. -/
theorem C51_unpack (trees : List (Option Tree)) (outputs : List (List T)) {t : Trace (List (List T))}
    (ht : Schedule (Mem.list (List T)) outputs.length (unpackBody trees) outputs t) :
    Agree (exec t outputs) (unpackAll trees outputs) := by
  refine (schedule ht (fun i hi => getList hi)).trans ?_
  unfold unpackAll
  apply loop_agree
  intro i s _ _
  refine (list_upd i _ s).trans ?_
  cases h : rd s i with
  | ok o =>
    simp only [Out.ok_bind]
    unfold unpackBody
    by_cases ho : o.length = 0
    · rw [if_pos ho, if_pos ho, Out.ok_bind]
      rw [rd_eq_ok, List.getElem?_eq_some_iff] at h
      rw [wr_of_lt _ h.1, ← h.2, List.set_getElem_self]
      exact Agree.refl _
    · rw [if_neg ho, if_neg ho]
      cases rd trees i with
      | ok t =>
        simp only [Out.ok_bind]
        cases t with
        | none => exact Agree.refl _
        | some t => exact Agree.refl _
      | _ => exact Agree.refl _
  | _ => exact Agree.refl _

/-- C51, the sums of the value provider. -/
theorem C51_sums (shares : List T) (outputs : List (List T)) (hl : shares.length = outputs.length) {t : Trace (List T × List (List T))}
    (ht : Schedule (Mem.pair T (List T)) shares.length sumBody (shares, outputs) t) :
    Agree (exec t (shares, outputs)) (SPFSS.sumNegateAll shares outputs) := by
  refine (schedule ht (fun i hi => getPair hi (by show i < outputs.length; omega))).trans ?_
  unfold SPFSS.sumNegateAll
  apply loop_agree
  intro i s _ _
  exact pair_upd i _ s

/-- C51, the sums of the index provider. -/
theorem C51_differences (shares : List T) (indices : List Int) (outputs : List (List T)) {t : Trace (List T)}
    (ht : Schedule (Mem.list T) shares.length (subBody indices outputs) shares t) :
    Agree (exec t shares) (SPFSS.subOthersAll shares indices outputs) := by
  refine (schedule ht (fun i hi => getList hi)).trans ?_
  unfold SPFSS.subOthersAll
  apply loop_agree
  intro i s _ _
  refine (list_upd i _ s).trans ?_
  refine (Agree.refl _).bind (fun x _ => ?_)
  unfold subBody
  rw [bind_assoc]
  refine (Agree.refl _).bind (fun row _ => ?_)
  rw [bind_assoc]
  exact Agree.refl _

/-- The body of the loop of `MPFSS.indexInBucket`. -/
def idxStep (buckets : List (List Nat)) (indices hashed : List Int) (i : Nat) (iib : List Int) : Out (List Int) := do
  let b ← rd buckets i
  if b.length = 0 then .ok iib else
  let e ← rd hashed i
  if e ≠ -1 then
    let ix ← rdI indices e
    wr iib i (MPFSS.lowerBound b ix : Int)
  else .ok iib

theorem set_self {α : Type} {l : List α} {i : Nat} {a : α} (h : l[i]? = some a) : l.set i a = l :=
  (Mem.list α).set_get l i a h

theorem buckets_loop (buckets : List (List Nat)) (indices hashed : List Int) (m : Nat) : ∀ (lo : Nat) (a : List Int),
    lo + m = buckets.length → a.length = buckets.length →
    Agree (loop (fun i => (Mem.pair Int (List T)).upd i (bucketBody buckets indices hashed i)) lo m
        (a, part (fun i _ => List.replicate (buckets[i]?.getD []).length 0) (List.replicate buckets.length []) lo))
      (loop (idxStep buckets indices hashed) lo m a >>= fun iib =>
        .ok (iib, part (fun i _ => List.replicate (buckets[i]?.getD []).length 0) (List.replicate buckets.length []) buckets.length)) := by
  induction m with
  | zero =>
    intro lo a h _
    rw [show lo = buckets.length by omega]
    exact Agree.refl _
  | succ m ih =>
    intro lo a h ha
    simp only [loop]
    rw [bind_assoc]
    have hlo : lo < buckets.length := by omega
    have h0 : (List.replicate buckets.length ([] : List T))[lo]? = some [] := by simp [hlo]
    have hrd := rd_part (fun i (_ : List T) => List.replicate (buckets[i]?.getD []).length (0 : T)) h0
    have hwr := wr_part (fun i (_ : List T) => List.replicate (buckets[i]?.getD []).length (0 : T)) h0
    rw [List.getElem?_eq_getElem hlo] at hwr
    simp only [Option.getD_some] at hwr
    have key : Agree ((Mem.pair Int (List T)).upd lo (bucketBody buckets indices hashed lo)
        (a, part (fun i _ => List.replicate (buckets[i]?.getD []).length 0) (List.replicate buckets.length []) lo))
      (idxStep buckets indices hashed lo a >>= fun a => .ok
        (a, part (fun i _ => List.replicate (buckets[i]?.getD []).length 0) (List.replicate buckets.length []) (lo + 1))) := by
      refine (pair_upd lo _ _).trans ?_
      unfold bucketBody idxStep
      simp only [rd_of_lt (show lo < a.length by omega), hrd, rd_of_lt hlo, Out.ok_bind]
      by_cases hb : buckets[lo].length = 0
      · rw [if_pos hb, if_pos hb]
        simp only [Out.ok_bind]
        rw [hb, List.replicate_zero] at hwr
        rw [hwr, wr_of_lt _ (by omega : lo < a.length), List.set_getElem_self]
        exact Agree.refl _
      · rw [if_neg hb, if_neg hb]
        cases rd hashed lo with
        | ok e =>
          simp only [Out.ok_bind]
          by_cases he : e ≠ -1
          · rw [if_pos he, if_pos he]
            cases rdI indices e with
            | ok ix =>
              simp only [Out.ok_bind]
              rw [hwr, wr_of_lt _ (by omega : lo < a.length)]
              exact Agree.refl _
            | _ => exact agree_bot (fun s e => by cases e) (fun s e => by cases e)
          · rw [if_neg he, if_neg he]
            simp only [Out.ok_bind]
            rw [hwr, wr_of_lt _ (by omega : lo < a.length), List.set_getElem_self]
            exact Agree.refl _
        | _ => exact agree_bot (fun s e => by cases e) (fun s e => by cases e)
    refine (key.bind (g := _) (fun s _ => Agree.refl _)).trans ?_
    rw [bind_assoc]
    refine (Agree.refl _).bind (fun a' e => ?_)
    rw [Out.ok_bind]
    refine ih (lo + 1) a' (by omega) ?_
    rw [← ha]
    unfold idxStep at e
    rw [rd_of_lt hlo, Out.ok_bind] at e
    by_cases hb : buckets[lo].length = 0
    · rw [if_pos hb] at e; cases e; rfl
    · rw [if_neg hb] at e
      obtain ⟨x, _, e⟩ := Out.bind_eq_ok.1 e
      by_cases he : x ≠ -1
      · rw [if_pos he] at e
        obtain ⟨y, _, e⟩ := Out.bind_eq_ok.1 e
        rw [wr_of_lt _ (by omega : lo < a.length)] at e
        cases e
        simp
      · rw [if_neg he] at e; cases e; rfl

/-- C51, the setup of the buckets by the MPFSS index provider: the indices in the buckets and the zeroed outputs. -/
theorem C51_buckets (buckets : List (List Nat)) (indices hashed : List Int) {t : Trace (List Int × List (List T))}
    (ht : Schedule (Mem.pair Int (List T)) buckets.length (bucketBody buckets indices hashed)
      (List.replicate buckets.length 0, List.replicate buckets.length []) t) (r : List Int × List (List T)) :
    exec t (List.replicate buckets.length 0, List.replicate buckets.length []) = .ok r ↔
      MPFSS.indexInBucket buckets indices hashed buckets.length = .ok r.1 ∧ r.2 = buckets.map (fun b => List.replicate b.length 0) := by
  have h1 := schedule ht
    (fun i hi => getPair (by simpa using hi) (by simpa using hi))
  have h2 := buckets_loop (T := T) buckets indices hashed buckets.length 0 (List.replicate buckets.length 0) (by omega) (by simp)
  rw [part_zero, part_full _ _ (by simp)] at h2
  rw [h1.trans h2 r, Out.bind_eq_ok]
  have h3 : (List.replicate buckets.length ([] : List T)).mapIdx (fun i _ => List.replicate (buckets[i]?.getD []).length (0 : T)) =
      buckets.map (fun b => List.replicate b.length 0) := by
    apply List.ext_getElem?
    intro i
    rw [List.getElem?_mapIdx, List.getElem?_map]
    by_cases hi : i < buckets.length <;> simp [hi]
  rw [h3]
  have h4 : loop (idxStep buckets indices hashed) 0 buckets.length (List.replicate buckets.length 0) =
      MPFSS.indexInBucket buckets indices hashed buckets.length := rfl
  rw [h4]
  constructor
  · rintro ⟨a, e1, e2⟩; cases e2; exact ⟨e1, rfl⟩
  · rintro ⟨e1, e2⟩; exact ⟨r.1, e1, by rw [← e2]⟩

/-- What the iterations of the loop of `ReceiveTrees` store, in any order `o`: the trees, and the status of one of the
    iterations that failed, if any. -/
theorem store_order (r : Nat → Out (Option Tree)) (o : List Nat) : ∀ (st st' : List (Option Tree) × Option (Code × String)),
    run (o.map (fun i => buildStore (r i) i)) st = .ok st' →
    st'.1 = st.1.mapIdx (fun j x => if j ∈ o then (match r j with | .ok (some t) => some t | _ => x) else x) ∧
    ((st'.2 = st.2 ∧ ∀ i ∈ o, ∀ c m, r i ≠ .err c m) ∨ ∃ i ∈ o, ∃ c m, r i = .err c m ∧ st'.2 = some (c, m)) := by
  induction o with
  | nil =>
    intro st st' h
    cases h
    refine ⟨?_, .inl ⟨rfl, by simp⟩⟩
    apply List.ext_getElem?
    intro j
    simp
  | cons i o ih =>
    intro st st' h
    simp only [List.map_cons, run] at h
    obtain ⟨st1, h1, h2⟩ := Out.bind_eq_ok.1 h
    obtain ⟨e1, e2⟩ := ih st1 st' h2
    have step : st1.1 = st.1.mapIdx (fun j x => if j = i then (match r j with | .ok (some t) => some t | _ => x) else x) ∧
        ((st1.2 = st.2 ∧ ∀ c m, r i ≠ .err c m) ∨ ∃ c m, r i = .err c m ∧ st1.2 = some (c, m)) := by
      have hid : ∀ (st : List (Option Tree)), (∀ t, r i ≠ .ok (some t)) →
          st = st.mapIdx (fun j x => if j = i then (match r j with | .ok (some t) => some t | _ => x) else x) := by
        intro st hr
        apply List.ext_getElem?
        intro j
        rw [List.getElem?_mapIdx]
        cases st[j]? with
        | none => rfl
        | some x =>
          by_cases e : j = i
          · subst e
            simp only [if_true, Option.map_some]
          · simp [e]
      unfold buildStore at h1
      cases hr : r i with
      | ok x =>
        cases x with
        | none =>
          rw [hr] at h1
          cases h1
          exact ⟨hid _ (fun t e => by rw [hr] at e; cases e), .inl ⟨rfl, fun c m e => by cases e⟩⟩
        | some t =>
          rw [hr] at h1
          obtain ⟨tr, h3, h4⟩ := Out.bind_eq_ok.1 h1
          cases h4
          refine ⟨?_, .inl ⟨rfl, fun c m e => by cases e⟩⟩
          unfold wr at h3
          split at h3
          · cases h3
            apply List.ext_getElem?
            intro j
            rw [List.getElem?_mapIdx, List.getElem?_set]
            by_cases e : i = j
            · subst e
              simp [*]
            · have e' : ¬ j = i := fun h => e h.symm
              simp [e, e']
          · cases h3
      | err c m =>
        rw [hr] at h1
        cases h1
        exact ⟨hid _ (fun t e => by rw [hr] at e; cases e), .inr ⟨c, m, rfl, rfl⟩⟩
      | throws m => rw [hr] at h1; cases h1
      | ub m => rw [hr] at h1; cases h1
      | diverge => rw [hr] at h1; cases h1
    refine ⟨?_, ?_⟩
    · rw [e1, step.1]
      apply List.ext_getElem?
      intro j
      simp only [List.getElem?_mapIdx, Option.map_map]
      congr 1
      funext x
      simp only [Function.comp, List.mem_cons]
      by_cases e : j = i
      · simp only [e, true_or, if_true]
        cases r i with
        | ok y => cases y <;> simp
        | _ => simp
      · simp [e]
    · rcases e2 with ⟨e2, e3⟩ | ⟨k, hk, c, m, e2, e3⟩
      · rcases step.2 with ⟨e4, e5⟩ | ⟨c, m, e4, e5⟩
        · refine .inl ⟨e2.trans e4, ?_⟩
          intro k hk
          rcases List.mem_cons.1 hk with rfl | hk
          · exact e5
          · exact e3 k hk
        · exact .inr ⟨i, by simp, c, m, e4, e2.trans e5⟩
      · exact .inr ⟨k, by simp [hk], c, m, e2, e3⟩

theorem store_ok (r : Nat → Out (Option Tree)) {n : Nat} (h : ∀ i < n, ∃ x, r i = .ok x) (o : List Nat) (ho : ∀ i ∈ o, i < n) :
    ∀ (st : List (Option Tree) × Option (Code × String)), st.1.length = n → ∃ st', run (o.map (fun i => buildStore (r i) i)) st = .ok st' := by
  induction o with
  | nil => intro st _; exact ⟨st, rfl⟩
  | cons i o ih =>
    intro st hl
    obtain ⟨x, hx⟩ := h i (ho i (by simp))
    have : ∃ st1, buildStore (r i) i st = .ok st1 ∧ st1.1.length = n := by
      rw [hx]
      cases x with
      | none => exact ⟨st, rfl, hl⟩
      | some t =>
        refine ⟨(st.1.set i (some t), st.2), ?_, by simp [hl]⟩
        unfold buildStore
        simp only []
        rw [wr_of_lt _ (by rw [hl]; exact ho i (by simp))]
        rfl
    obtain ⟨st1, h1, h2⟩ := this
    obtain ⟨st', h3⟩ := ih (fun i hi => ho i (by simp [hi])) st1 h2
    exact ⟨st', by simp only [List.map_cons, run]; rw [h1, Out.ok_bind, h3]⟩

/-- C51, reconstruction of the trees by the receiver: if all iterations succeed (see `C51_build_succeeds`) then every order
    gives the result of the model. -/
theorem C51_build (aes : Cipher) (fl : Nat → Nat → Nat) (keys : List Block) (choices : List Bool) (otResults : List Block)
    (offsets numLeaves : List Nat) (indices : List Int)
    (h : ∀ i < numLeaves.length, ∃ x, buildOne aes fl keys choices otResults offsets numLeaves indices i = .ok x)
    {o : List Nat} (ho : o.Perm (List.range numLeaves.length)) :
    run (o.map (fun i => buildStore (buildOne aes fl keys choices otResults offsets numLeaves indices i) i))
        (List.replicate numLeaves.length none, none) =
      buildTrees aes fl keys choices otResults offsets numLeaves indices := by
  have hm : ∀ i, i ∈ o ↔ i < numLeaves.length := fun i => by rw [ho.mem_iff, List.mem_range]
  obtain ⟨st, h1⟩ := store_ok _ h o (fun i hi => (hm i).1 hi) (List.replicate numLeaves.length none, none) (by simp)
  obtain ⟨h2, h3⟩ := store_order _ o _ _ h1
  rw [h1]
  have h3' : st.2 = none := by
    rcases h3 with h3 | ⟨i, hi, c, m, h3, _⟩
    · exact h3.1
    · obtain ⟨x, hx⟩ := h i ((hm i).1 hi)
      rw [h3] at hx; cases hx
  have hst : st = ((List.range numLeaves.length).map (fun i =>
      match buildOne aes fl keys choices otResults offsets numLeaves indices i with | .ok (some t) => some t | _ => none), none) := by
    refine Prod.ext ?_ h3'
    rw [h2]
    apply List.ext_getElem?
    intro j
    rw [List.getElem?_mapIdx, List.getElem?_map]
    by_cases hj : j < numLeaves.length
    · simp [hj, (hm j).2 hj]
    · simp [hj]
  rw [hst]
  symm
  unfold buildTrees
  refine loop_eq (fun i st => st = (((List.range numLeaves.length).map (fun i =>
      match buildOne aes fl keys choices otResults offsets numLeaves indices i with | .ok (some t) => some t | _ => none)).take i, none)) (by simp) ?_ ?_
  · rintro i s _ hi rfl
    have hi : i < numLeaves.length := by omega
    refine ⟨_, ?_, rfl⟩
    rw [List.take_succ_eq_append_getElem (by simpa using hi), List.getElem_map, List.getElem_range]
    obtain ⟨x, hx⟩ := h i hi
    rw [hx]
    unfold buildOne at hx
    obtain ⟨n, e1, hx⟩ := Out.bind_eq_ok.1 hx
    rw [e1, Out.ok_bind]
    by_cases hn : n = 0
    · rw [if_pos hn] at hx ⊢
      cases hx
      rfl
    · rw [if_neg hn] at hx ⊢
      obtain ⟨o0, e2, hx⟩ := Out.bind_eq_ok.1 hx
      obtain ⟨o1, e3, hx⟩ := Out.bind_eq_ok.1 hx
      obtain ⟨xors, e4, hx⟩ := Out.bind_eq_ok.1 hx
      obtain ⟨idx, e5, hx⟩ := Out.bind_eq_ok.1 hx
      obtain ⟨t, e6, hx⟩ := Out.bind_eq_ok.1 hx
      cases hx
      rw [e2, Out.ok_bind, e3, Out.ok_bind, e4, Out.ok_bind, e5, Out.ok_bind, e6]
  · rintro s rfl
    rw [List.take_of_length_le (by simp)]

/-- C51: and if some fail, the trees are still the same in all orders, and an error is returned in all orders. (Which of the
    errors, if there are different ones, depends on the order: all iterations write to `status`.) -/
theorem C51_build_failing (r : Nat → Out (Option Tree)) {n : Nat} {o o' : List Nat} (ho : o.Perm (List.range n)) (ho' : o'.Perm (List.range n))
    {s s' : List (Option Tree) × Option (Code × String)}
    (h : run (o.map (fun i => buildStore (r i) i)) (List.replicate n none, none) = .ok s)
    (h' : run (o'.map (fun i => buildStore (r i) i)) (List.replicate n none, none) = .ok s') :
    s.1 = s'.1 ∧ (s.2 = none ↔ s'.2 = none) := by
  obtain ⟨h1, h2⟩ := store_order r o _ _ h
  obtain ⟨h1', h2'⟩ := store_order r o' _ _ h'
  have hm : ∀ i, i ∈ o ↔ i ∈ o' := fun i => by rw [ho.mem_iff, ho'.mem_iff]
  refine ⟨?_, ?_⟩
  · rw [h1, h1']
    simp only [hm]
  · rcases h2 with ⟨h2, h3⟩ | ⟨i, hi, c, m, h2, h3⟩
    · rcases h2' with ⟨h2', h3'⟩ | ⟨i, hi, c, m, h2', h3'⟩
      · rw [h2, h2']
      · exact absurd h2' (h3 i ((hm i).2 hi) c m)
    · rcases h2' with ⟨h2', h3'⟩ | ⟨i', hi', c', m', h2', h3'⟩
      · exact absurd h2 (h3' i ((hm i).1 hi) c m)
      · rw [h3, h3']; simp

theorem xorTable_any {choices : List Bool} {res : List Block} {off k : Nat} (hc : off + k ≤ choices.length) (hr : off + k ≤ res.length) :
    ∃ x, xorTable choices res off k = .ok (mat k 2 x) := by
  unfold xorTable
  obtain ⟨s, h1, x, h2⟩ := loop_inv (fun j xors => do
    let c ← rd choices (off + j)
    let r ← rd res (off + j)
    wr2 xors j (if c then 1 else 0) (empToGgm r)) (fun _ s => ∃ x, s = mat k 2 x) 0 k (List.replicate k (List.replicate 2 0))
    ⟨fun _ _ => 0, by simp [mat, List.map_const', List.replicate]⟩
    (by
      rintro i s _ hi ⟨x, rfl⟩
      rw [rd_of_lt (by omega : off + i < choices.length), rd_of_lt (by omega : off + i < res.length), Out.ok_bind, Out.ok_bind,
        upd2_mat _ _ (by omega) (by split <;> omega)]
      exact ⟨_, rfl, _, rfl⟩)
  exact ⟨x, by rw [h1, h2]⟩

/-- C51: all iterations succeed in `RunReceiverBatched`, whatever the peer sends: the indices have been checked, the OT
    returns as many blocks as there are choices, and two keys are read. -/
theorem C51_build_succeeds (aes : Cipher) {fl : Nat → Nat → Nat} {keys : List Block} (hk : keys.length = 2) {ns ms : List Nat}
    (hidx : IdxOk ns ms) (hg : ∀ n ∈ ns, GoodSize fl n) {choices : List Bool} {offsets : List Nat}
    (hc : allChoices fl ns (ms.map (fun m : Nat => (m : Int))) 0 = .ok (choices, offsets)) {otResults : List Block}
    (hr : otResults.length = choices.length) (i : Nat) (hi : i < ns.length) :
    ∃ x, buildOne aes fl keys choices otResults offsets ns (ms.map (fun m : Nat => (m : Int))) i = .ok x := by
  have hlen := hidx.1
  rw [allChoices_eq ns ms 0 hlen hg] at hc
  cases hc
  have hi2 : i < ms.length := by omega
  unfold buildOne
  rw [rd_of_lt hi, Out.ok_bind]
  by_cases hz : ns[i] = 0
  · rw [if_pos hz]; exact ⟨_, rfl⟩
  · rw [if_neg hz]
    have hoff : offs fl ns (i + 1) = offs fl ns i + fl ns[i] 2 := by
      unfold offs
      rw [List.take_succ_eq_append_getElem hi, List.map_append, List.sum_append]
      simp only [List.map_cons, List.map_nil, List.sum_cons, List.sum_nil, kOf, hz, if_false, Nat.add_zero]
    have e0 : rd ((List.range (ns.length + 1)).map (fun i => 0 + offs fl ns i)) i = .ok (offs fl ns i) := by
      rw [rd_eq_ok]; simp [show i < ns.length + 1 by omega]
    have e1 : rd ((List.range (ns.length + 1)).map (fun i => 0 + offs fl ns i)) (i + 1) = .ok (offs fl ns i + fl ns[i] 2) := by
      rw [rd_eq_ok]; simp [hi, hoff]
    have hle : offs fl ns i + fl ns[i] 2 ≤ (csRows fl ns ms).flatten.length := by
      have h2 := take_csRows_lengths (fl := fl) ns ms hlen ns.length
      rw [List.take_of_length_le (by simp [csRows])] at h2
      rw [List.length_flatten, h2, ← hoff]
      unfold offs
      rw [List.take_of_length_le (le_refl ns.length)]
      conv_rhs => rw [← List.take_append_drop (i + 1) ns, List.map_append, List.sum_append]
      omega
    rw [e0, e1]
    simp only [Out.ok_bind, Nat.add_sub_cancel_left]
    obtain ⟨x, hx⟩ := xorTable_any hle (by rw [hr]; exact hle) (res := otResults)
    rw [hx, Out.ok_bind, show rd (ms.map (fun m : Nat => (m : Int))) i = .ok (ms[i] : Int) by rw [rd_eq_ok]; simp [hi2], Out.ok_bind]
    have hpos : 0 < ns[i] := by omega
    obtain ⟨hs, hl, hlast, hal, hb, _, _⟩ := tree_facts aes hpos (hg _ (by simp)) hk 0
    have hm := hidx.2 i ns[i] ms[i] (by simp [hi]) (by simp [hi2]) hpos
    have hN : (szs fl ns[i])[(szs fl ns[i]).length - 1]? = some ns[i] := by rw [hl]; exact hlast
    have hu := createFromXor_unfold aes fl (by omega) hk hs hN hm hal x
    obtain ⟨W, hW⟩ := fillLoop_safe aes (by omega) hk hs hN hm hb x (fun _ _ => 0)
    rw [hW, hl, Nat.add_sub_cancel, Out.ok_bind] at hu
    have hu' : createFromXor aes fl 2 ns[i] ms[i] (mat (fl ns[i] 2) 2 x) keys = _ := hu
    rw [hu']
    exact ⟨_, rfl⟩

/-- The first step of the sum of a row, and the rest. -/
def sumFirst (st : T × List T) : Out (T × List T) := do
  let x ← rd st.2 0
  let row ← wr st.2 0 (-x)
  .ok (st.1 + x, row)

def sumSecond (st : T × List T) : Out (T × List T) := do
  let x ← rd st.2 1
  let row ← wr st.2 1 (-x)
  .ok (st.1 + x, row)

/-- Schedules: an order of whole iterations, and interleaved steps of the sums of two rows of length 2. -/
example (s s' a b c d : T) : Schedule (Mem.list (List Nat)) 3 (hashBody ⟨id, 3, fun _ _ => false, fun _ => 1⟩ 5 [1, 2, 3]) [[0, 0, 0], [0, 0, 0], [0, 0, 0]]
      ([2, 0, 1].map (fun i => (i, (Mem.list (List Nat)).upd i (hashBody ⟨id, 3, fun _ _ => false, fun _ => 1⟩ 5 [1, 2, 3] i)))) ∧
    Schedule (Mem.pair T (List T)) 2 sumBody ([s, s'], [[a, b], [c, d]])
      [(0, (Mem.pair T (List T)).upd 0 sumFirst), (1, (Mem.pair T (List T)).upd 1 sumFirst),
        (1, (Mem.pair T (List T)).upd 1 sumSecond), (0, (Mem.pair T (List T)).upd 0 sumSecond)] := by
  refine ⟨Schedule.order _ _ _ (by decide), Schedule.two _ _ _ _ _ _ _ ?_ ?_⟩
  · intro x hx
    cases (Option.some.inj hx : (s, [a, b]) = x)
    rfl
  · intro x hx
    cases (Option.some.inj hx : (s', [c, d]) = x)
    rfl

end DVO.Par
