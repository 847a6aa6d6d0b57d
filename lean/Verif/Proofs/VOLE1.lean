/-
Vector OLE: local computations.
-/
import Verif.Spec.VOLE
import Verif.Proofs.Pair
import Verif.Proofs.RNG
import Verif.Props.MPFSS
import Mathlib.Tactic.Ring

namespace DVO.VOLE
open Net
variable {T : Type}

/-- The outcome is a result satisfying `Q`, an exception, or non-termination. -/
def Fine {α : Type} (Q : α → Prop) : Out α → Prop
  | .ok a => Q a
  | .throws _ => True
  | .diverge => True
  | _ => False

namespace Fine
variable {α β : Type} {Q : α → Prop} {R : β → Prop}

theorem bind {x : Out α} {f : α → Out β} (h : Fine Q x) (hf : ∀ a, Q a → Fine R (f a)) : Fine R (x >>= f) := by
  cases x with
  | ok a => exact hf a h
  | throws m => trivial
  | diverge => trivial
  | err c m => exact absurd h id
  | ub w => exact absurd h id

theorem mono {Q' : α → Prop} {x : Out α} (h : Fine Q x) (hi : ∀ a, Q a → Q' a) : Fine Q' x := by
  cases x <;> first | exact hi _ h | exact h

theorem and {Q' : α → Prop} {x : Out α} (h : Fine Q x) (h' : Fine Q' x) : Fine (fun a => Q a ∧ Q' a) x := by
  cases x <;> first | exact ⟨h, h'⟩ | exact h

theorem loop {σ : Type} {f : Nat → σ → Out σ} (Inv : Nat → σ → Prop) {lo n : Nat} {s : σ} (h0 : Inv lo s)
    (hstep : ∀ i s, lo ≤ i → i < lo + n → Inv i s → Fine (Inv (i + 1)) (f i s)) : Fine (Inv (lo + n)) (DVO.loop f lo n s) := by
  induction n generalizing lo s with
  | zero => exact h0
  | succ n ih =>
    refine Fine.bind (hstep lo s (Nat.le_refl _) (by omega) h0) ?_
    intro s' h'
    rw [show lo + (n + 1) = lo + 1 + n by omega]
    exact ih h' (fun i s hl hu hi => hstep i s (by omega) (by omega) hi)

theorem cases {x : Out α} (h : Fine Q x) {P : Out Unit → Prop} (hP : (¬ ∃ a, x = .ok a) → ∀ o, Expected o → P o) :
    (∃ a, x = .ok a ∧ Q a) ∨ Bad P x := by
  cases x with
  | ok a => exact .inl ⟨a, rfl, h⟩
  | throws m => right; exact hP (by simp) _ trivial
  | diverge => right; exact hP (by simp) _ trivial
  | err c m => exact absurd h id
  | ub w => exact absurd h id

end Fine

/-! ### The generator -/

theorem filled_len (aes : Cipher) (key c : Block) (b : List (BitVec 64)) : (RNG.filled aes key c b).length = b.length :=
  RNG.filled_length aes key c b

theorem take_usable {g : RNG.Gen} (hs : 2 ≤ g.buffer.length) (hl : g.buffer.length < 2 ^ 40) (hp : 0 ≤ g.used) (hu : g.used < g.buffer.length)
    (hc : g.counter ≤ RNG.reseedInterval) : ∃ w g', RNG.take g = (.ok w, g') ∧ Usable g' := by
  unfold RNG.take rdI
  rw [if_neg (by omega), rd_of_lt (by omega)]
  exact ⟨_, _, rfl, ⟨hs, hl, by show 0 ≤ g.used + 1; omega, by show g.used + 1 ≤ (g.buffer.length : Int); omega, hc⟩⟩

theorem word_fine (aes : Cipher) {g : RNG.Gen} (h : Usable g) : Fine (fun r => Usable r.2) (word aes g) := by
  have h1 := h.size
  have h2 := h.size_lt
  have h3 := h.pos
  have h4 := h.le
  have h5 := h.counter
  have h5' : g.counter ≤ 2 ^ 48 := h5
  unfold word RNG.next
  by_cases hu : g.used ≥ g.buffer.length
  · rw [if_pos hu, RNG.refill_eq aes g (by omega)]
    dsimp only
    split
    · next hg => split at hg
                 · cases hg
                 · next hc =>
                    obtain ⟨w, g', e, hu'⟩ := take_usable (g := { g with
                      buffer := RNG.filled aes g.key g.nonce g.buffer
                      nonce := g.nonce + BitVec.ofNat 128 (g.buffer.length / 2)
                      used := 0
                      counter := g.counter + (g.buffer.length / 2 : Nat) })
                      (by simpa using h1) (by simpa using h2) (le_refl _) (by simp; omega) (by simpa using hc)
                    rw [e] at hg
                    cases hg
                    exact hu'
    all_goals (next hg => split at hg
                          · cases hg <;> trivial
                          · next hc =>
                            obtain ⟨w, g', e, hu'⟩ := take_usable (g := { g with
                              buffer := RNG.filled aes g.key g.nonce g.buffer
                              nonce := g.nonce + BitVec.ofNat 128 (g.buffer.length / 2)
                              used := 0
                              counter := g.counter + (g.buffer.length / 2 : Nat) })
                              (by simpa using h1) (by simpa using h2) (le_refl _) (by simp; omega) (by simpa using hc)
                            rw [e] at hg
                            cases hg)
  · rw [if_neg hu]
    obtain ⟨w, g', e, hu'⟩ := take_usable h1 h2 h3 (by omega) h5
    rw [e]
    exact hu'

theorem word128_fine (lib : Lib) (aes : Cipher) {g : RNG.Gen} (h : Usable g) : Fine (fun r => Usable r.2) (word128 lib aes g) := by
  unfold word128
  refine Fine.bind (word_fine aes h) ?_
  rintro ⟨a, g1⟩ h1
  refine Fine.bind (word_fine aes h1) ?_
  rintro ⟨b, g2⟩ h2
  exact h2

theorem unif_fine {lib : Lib} {aes : Cipher} (hc : lib.Conforms aes) {g : RNG.Gen} (h : Usable g) {lo hi : Int} (hle : lo ≤ hi) :
    Fine (fun r => lo ≤ r.1 ∧ r.1 ≤ hi ∧ Usable r.2) (lib.unif aes g lo hi) := by
  have := hc g lo hi h hle
  revert this
  cases lib.unif aes g lo hi with
  | ok a => intro this; exact this
  | throws m => intro; trivial
  | diverge => intro; trivial
  | err c m => intro h; exact h
  | ub w => intro h; exact h

theorem create_usable (junk : RNG.Gen) (s : List (BitVec 8)) (hs : 32 ≤ s.length) {b : Int} (hb : b < 2 ^ 40) :
    ∃ g, Usable g ∧ RNG.create junk s b = .ok g := by
  unfold RNG.create RNG.seed
  dsimp only
  rw [if_neg (by unfold RNG.stateSize; omega)]
  refine ⟨_, ?_, rfl⟩
  constructor <;> simp only [RNG.ctor, List.length_replicate, RNG.reseedInterval]
  · split <;> omega
  · split <;> omega
  · omega
  · exact le_refl _
  · norm_num

/-- The generator does not depend on the uninitialised memory it is created in. -/
theorem create_junk (junk junk' : RNG.Gen) (s : List (BitVec 8)) (b : Int) : RNG.create junk s b = RNG.create junk' s b := by
  unfold RNG.create RNG.seed RNG.ctor
  dsimp only
  by_cases h : s.length < RNG.stateSize
  · rw [if_pos h, if_pos h]
  · rw [if_neg h, if_neg h]

/-! ### The code generator -/

/-- A matrix of the given dimensions. -/
structure CodeOk (c : Sparse T) (rows cols : Nat) : Prop where
  rows_ : c.rows = rows
  cols_ : c.cols.length = cols
  entries : ∀ col ∈ c.cols, ∀ e ∈ col, e.1 < rows

theorem setEntry_lt {col : List (Nat × T)} {row R : Nat} {x : T} (h : ∀ e ∈ col, e.1 < R) (hr : row < R) :
    ∀ e ∈ setEntry col row x, e.1 < R := by
  intro e he
  unfold setEntry at he
  split at he
  · simp only [List.mem_map] at he
    obtain ⟨a, ha, rfl⟩ := he
    split
    · exact hr
    · exact h a ha
  · simp only [List.mem_append, List.mem_singleton] at he
    rcases he with he | rfl
    · exact h e he
    · exact hr

theorem setEntry_length (col : List (Nat × T)) (row : Nat) (x : T) : (setEntry col row x).length ≤ col.length + 1 := by
  unfold setEntry
  split <;> simp

theorem setEntry_nodup {col : List (Nat × T)} {row : Nat} {x : T} (h : (col.map Prod.fst).Nodup) : ((setEntry col row x).map Prod.fst).Nodup := by
  unfold setEntry
  split
  · have : (col.map (fun e => if e.1 = row then (row, x) else e)).map Prod.fst = col.map Prod.fst := by
      rw [List.map_map]
      apply List.map_congr_left
      intro e _
      simp only [Function.comp]
      split
      · next h => exact h.symm
      · rfl
    rw [this]; exact h
  · next hn =>
    rw [List.map_append, List.nodup_append]
    refine ⟨h, by simp, ?_⟩
    intro a ha b hb
    simp only [List.map_cons, List.map_nil, List.mem_singleton] at hb
    subst hb
    rintro rfl
    apply hn
    rw [List.any_eq_true]
    obtain ⟨e, he, rfl⟩ := List.mem_map.1 ha
    exact ⟨e, he, by simp⟩

/-- What a sampled column looks like. -/
structure ColOk (rows k : Nat) (col : List (Nat × T)) : Prop where
  lt : ∀ e ∈ col, e.1 < rows
  len : col.length ≤ k
  nodup : (col.map Prod.fst).Nodup

theorem sampleElems_fine [Scalar T] (lib : Lib) (aes : Cipher) (n : Nat) {g : RNG.Gen} (h : Usable g) :
    Fine (fun r : List T × RNG.Gen => r.1.length = n ∧ Usable r.2) (sampleElems lib aes n g) := by
  unfold sampleElems
  have := Fine.loop (f := fun _ (s : List T × RNG.Gen) => do
    let (r, g) ← word128 lib aes s.2
    .ok (s.1 ++ [Scalar.ofU128 r], g)) (fun i s => s.1.length = i ∧ Usable s.2) (lo := 0) (n := n) (s := ([], g)) ⟨rfl, h⟩ ?_
  · simpa using this
  · rintro i ⟨l, g⟩ - - ⟨hl, hg⟩
    refine Fine.bind (word128_fine lib aes hg) ?_
    rintro ⟨r, g1⟩ h1
    exact ⟨by simpa using hl, h1⟩

theorem sampleCol_fine {lib : Lib} {aes : Cipher} (hc : lib.Conforms aes) {rows : Int} (hr : 1 ≤ rows) {elems : List T} {col : Nat}
    (he : (col + 1) * nonzeros ≤ elems.length) {g : RNG.Gen} (h : Usable g) :
    Fine (fun r : List (Nat × T) × RNG.Gen => ColOk rows.toNat nonzeros r.1 ∧ Usable r.2) (sampleCol lib aes rows elems col g) := by
  unfold sampleCol
  have := Fine.loop (f := fun i (s : List (Nat × T) × RNG.Gen) => do
    let (row, g) ← lib.unif aes s.2 0 (rows - 1)
    if row < 0 ∨ row ≥ rows then .ub "Eigen: coeffRef" else
    let x ← rd elems (col * nonzeros + i)
    .ok (setEntry s.1 row.toNat x, g)) (fun i s => ColOk rows.toNat i s.1 ∧ Usable s.2) (lo := 0) (n := nonzeros) (s := ([], g))
    ⟨⟨by simp, by simp, by simp⟩, h⟩ ?_
  · simpa using this
  · rintro i ⟨l, g⟩ - hi ⟨hl, hg⟩
    refine Fine.bind (unif_fine hc hg (by omega)) ?_
    rintro ⟨row, g1⟩ ⟨h1, h2, h3⟩
    dsimp only at h1 h2 ⊢
    rw [if_neg (by omega), rd_of_lt (by rw [Nat.add_mul] at he; omega), Out.ok_bind]
    refine ⟨⟨setEntry_lt hl.lt (by omega), ?_, setEntry_nodup hl.nodup⟩, h3⟩
    have := setEntry_length l row.toNat (elems[col * nonzeros + i]'(by rw [Nat.add_mul] at he; omega))
    have := hl.len
    dsimp only at this ⊢
    omega

/-- What a sampled matrix looks like. -/
structure SampledOk (c : Sparse T) (rows cols : Nat) : Prop extends CodeOk c rows cols where
  columns : ∀ col ∈ c.cols, ColOk rows nonzeros col

theorem sampleCode_fine [Scalar T] {lib : Lib} {aes : Cipher} (hc : lib.Conforms aes) {rows : Int} (hr : 1 ≤ rows) (cols : Nat)
    {g : RNG.Gen} (h : Usable g) : Fine (fun c : Sparse T => SampledOk c rows.toNat cols) (sampleCode lib aes rows cols g) := by
  unfold sampleCode
  refine Fine.bind (sampleElems_fine lib aes _ h) ?_
  rintro ⟨elems, g1⟩ ⟨hl, hg1⟩
  dsimp only at hl ⊢
  rw [if_neg (by omega)]
  have := Fine.loop (f := fun col (s : List (List (Nat × T)) × RNG.Gen) => do
    let (c, g) ← sampleCol lib aes rows elems col s.2
    .ok (s.1 ++ [c], g)) (fun i s => s.1.length = i ∧ (∀ c ∈ s.1, ColOk rows.toNat nonzeros c) ∧ Usable s.2) (lo := 0) (n := cols)
    (s := ([], g1)) ⟨rfl, by simp, hg1⟩ ?_
  · refine Fine.bind this ?_
    rintro ⟨cs, g2⟩ ⟨h1, h2, -⟩
    exact ⟨⟨by show rows = _; omega, by simpa using h1, fun col hcol => (h2 col hcol).lt⟩, h2⟩
  · rintro i ⟨l, g⟩ - hi ⟨h1, h2, h3⟩
    refine Fine.bind (sampleCol_fine hc hr (col := i) (by rw [hl, Nat.mul_comm]; exact Nat.mul_le_mul_left _ (by omega)) h3) ?_
    rintro ⟨c, g2⟩ ⟨h4, h5⟩
    refine ⟨by simpa using h1, ?_, h5⟩
    intro c' hc'
    rcases List.mem_append.1 hc' with hm | hm
    · exact h2 c' hm
    · rw [List.mem_singleton] at hm; rw [hm]; exact h4

/-! ### Products -/

section
variable [Scalar T]

/-- The product of a vector and a column. -/
def dot (u : List T) (col : List (Nat × T)) : T := (col.map (fun e => u.getD e.1 0 * e.2)).sum

theorem colDot_eq {u : List T} {col : List (Nat × T)} (h : ∀ e ∈ col, e.1 < u.length) : colDot u col = .ok (dot u col) := by
  induction col with
  | nil => rfl
  | cons e col ih =>
    obtain ⟨r, x⟩ := e
    have hr : r < u.length := h (r, x) (by simp)
    unfold colDot
    rw [rd_of_lt hr, Out.ok_bind, ih (fun e he => h e (by simp [he])), Out.ok_bind]
    simp [dot, hr]

theorem mapOut_eq {α β : Type} {f : α → Out β} {g : α → β} {l : List α} (h : ∀ a ∈ l, f a = .ok (g a)) : mapOut f l = .ok (l.map g) := by
  induction l with
  | nil => rfl
  | cons a l ih =>
    unfold mapOut
    rw [h a (by simp), Out.ok_bind, ih (fun b hb => h b (by simp [hb])), Out.ok_bind, List.map_cons]

theorem vecMat_eq {u : List T} {c : Sparse T} {cols : Nat} (h : CodeOk c u.length cols) : vecMat u c = .ok (c.cols.map (dot u)) := by
  unfold vecMat
  rw [if_neg (by rw [h.rows_]; simp)]
  exact mapOut_eq (fun col hcol => colDot_eq (h.entries col hcol))

theorem dot_linear {d : T} {u v w : List T} (h : Correlated d u v w) (col : List (Nat × T)) (hc : ∀ e ∈ col, e.1 < u.length) :
    dot w col = dot u col * d + dot v col := by
  induction col with
  | nil => simp [dot]
  | cons e col ih =>
    have ih' := ih (fun e he => hc e (by simp [he]))
    unfold dot at ih' ⊢
    rw [List.map_cons, List.sum_cons, ih', List.map_cons, List.sum_cons, List.map_cons, List.sum_cons]
    have he : e.1 < u.length := hc e (by simp)
    have hv : e.1 < v.length := by rw [← h.1]; exact he
    have : w.getD e.1 0 = u.getD e.1 0 * d + v.getD e.1 0 := by
      rw [h.2]
      simp [he, hv]
    rw [this]
    ring

theorem vecOp_eq {op : T → T → T} {a b : List T} (h : a.length = b.length) : vecOp op a b = .ok (List.zipWith op a b) := by
  unfold vecOp
  rw [if_neg (by omega)]

/-! ### Correlations -/

theorem Correlated.len_v {d : T} {u v w : List T} (h : Correlated d u v w) : v.length = u.length := h.1.symm

theorem Correlated.len_w {d : T} {u v w : List T} (h : Correlated d u v w) : w.length = u.length := by
  rw [h.2, List.length_zipWith, ← h.1, Nat.min_self]

theorem Correlated.append {d : T} {u v w u' v' w' : List T} (h : Correlated d u v w) (h' : Correlated d u' v' w') :
    Correlated d (u ++ u') (v ++ v') (w ++ w') := by
  refine ⟨by simp [h.1, h'.1], ?_⟩
  rw [List.zipWith_append h.1, ← h.2, ← h'.2]

theorem Correlated.take {d : T} {u v w : List T} (h : Correlated d u v w) (n : Nat) : Correlated d (u.take n) (v.take n) (w.take n) := by
  refine ⟨by simp [h.1], ?_⟩
  conv_lhs => rw [h.2, List.take_zipWith]

theorem Correlated.drop {d : T} {u v w : List T} (h : Correlated d u v w) (n : Nat) : Correlated d (u.drop n) (v.drop n) (w.drop n) := by
  refine ⟨by simp [h.1], ?_⟩
  conv_lhs => rw [h.2, List.drop_zipWith]

theorem Correlated.nil (d : T) : Correlated d [] [] [] := ⟨rfl, rfl⟩

theorem correlated_of {d : T} {u v w : List T} (h1 : u.length = v.length) (h2 : u.length = w.length)
    (h : ∀ (k : Nat) (a b c : T), u[k]? = some a → v[k]? = some b → w[k]? = some c → c = a * d + b) : Correlated d u v w := by
  refine ⟨h1, ?_⟩
  apply List.ext_getElem?
  intro k
  by_cases hk : k < u.length
  · have hv : k < v.length := by omega
    have hw : k < w.length := by omega
    simp only [List.getElem?_zipWith, List.getElem?_eq_getElem hk, List.getElem?_eq_getElem hv, List.getElem?_eq_getElem hw]
    rw [h k u[k] v[k] w[k] (List.getElem?_eq_getElem hk) (List.getElem?_eq_getElem hv) (List.getElem?_eq_getElem hw)]
  · rw [List.getElem?_eq_none (by omega), List.getElem?_eq_none (by simp; omega)]

theorem Correlated.get {d : T} {u v w : List T} (h : Correlated d u v w) {k : Nat} {a b c : T} (ha : u[k]? = some a) (hb : v[k]? = some b)
    (hc : w[k]? = some c) : c = a * d + b := by
  rw [h.2, List.getElem?_zipWith, ha, hb] at hc
  simpa using hc.symm

end

/-! ### The cache -/

theorem splitTail_eq {α : Type} {l : List α} {n : Nat} (h : n ≤ l.length) :
    splitTail l (n : Int) = .ok (l.take (l.length - n), l.drop (l.length - n)) := by
  unfold splitTail
  rw [if_neg (by omega), Int.toNat_natCast]

/-- The remaining cache after `n` elements have been taken. -/
def SRes.rest (c : SRes T) (n : Nat) : SRes T := ⟨c.u.take (c.u.length - n), c.v.take (c.v.length - n), c.ids.take (c.ids.length - n)⟩
/-- The last `n` elements. -/
def SRes.last (c : SRes T) (n : Nat) : SRes T := ⟨c.u.drop (c.u.length - n), c.v.drop (c.v.length - n), c.ids.drop (c.ids.length - n)⟩
/-- The remaining cache after `n` elements have been taken. -/
def RRes.rest (c : RRes T) (n : Nat) : RRes T := ⟨c.w.take (c.w.length - n), c.delta, c.ids.take (c.ids.length - n)⟩
/-- The last `n` elements. -/
def RRes.last (c : RRes T) (n : Nat) : RRes T := ⟨c.w.drop (c.w.length - n), c.delta, c.ids.drop (c.ids.length - n)⟩

theorem getSender_eq {c : SRes T} {n : Nat} (hu : n ≤ c.u.length) (hv : n ≤ c.v.length) :
    getSender c (n : Int) = .ok (c.rest n, c.last n) := by
  unfold getSender
  rw [if_neg (by omega), splitTail_eq hu, Out.ok_bind, splitTail_eq hv, Int.toNat_natCast]
  rfl

theorem getReceiver_eq {c : RRes T} {n : Nat} (hw : n ≤ c.w.length) : getReceiver c (n : Int) = .ok (c.rest n, c.last n) := by
  unfold getReceiver
  rw [if_neg (by omega), splitTail_eq hw, Out.ok_bind, Int.toNat_natCast]
  rfl

theorem getSenderCached_bind {β : Type} {s : VState T} {n : Nat} (hu : n ≤ s.sCached.u.length) (hv : n ≤ s.sCached.v.length)
    (f : SRes T → VM T β) :
    (getSenderCached (n : Int) >>= f) s = f (s.sCached.last n) { s with sCached := s.sCached.rest n } := by
  unfold getSenderCached
  rw [VM.bind_assoc, VM.get_bind, VM.bind_assoc, getSender_eq hu hv, VM.lift_ok_bind]
  dsimp only
  rw [VM.bind_assoc, VM.modify_bind, VM.pure_bind']

theorem getReceiverCached_bind {β : Type} {s : VState T} {n : Nat} (hw : n ≤ s.rCached.w.length) (f : RRes T → VM T β) :
    (getReceiverCached (n : Int) >>= f) s = f (s.rCached.last n) { s with rCached := s.rCached.rest n } := by
  unfold getReceiverCached
  rw [VM.bind_assoc, VM.get_bind, VM.bind_assoc, getReceiver_eq hw, VM.lift_ok_bind]
  dsimp only
  rw [VM.bind_assoc, VM.modify_bind, VM.pure_bind']

/-- Sender's and receiver's parts of correlations with `d`. -/
structure Corr [Scalar T] (d : T) (c : SRes T) (e : RRes T) : Prop where
  corr : Correlated d c.u c.v e.w
  delta : e.delta = d

theorem Corr.rest [Scalar T] {d : T} {c : SRes T} {e : RRes T} (h : Corr d c e) (n : Nat) : Corr d (c.rest n) (e.rest n) := by
  refine ⟨?_, h.delta⟩
  have := h.corr.take (c.u.length - n)
  unfold SRes.rest RRes.rest
  rw [h.corr.len_v, h.corr.len_w]
  exact this

theorem Corr.last [Scalar T] {d : T} {c : SRes T} {e : RRes T} (h : Corr d c e) (n : Nat) : Corr d (c.last n) (e.last n) := by
  refine ⟨?_, h.delta⟩
  have := h.corr.drop (c.u.length - n)
  unfold SRes.last RRes.last
  rw [h.corr.len_v, h.corr.len_w]
  exact this

/-! ### The noise -/

theorem sampleIndices_fine {lib : Lib} {aes : Cipher} (hc : lib.Conforms aes) {o n : Int} (ho : 1 ≤ o) (hn : 0 ≤ n) (fuel : Nat) :
    ∀ {g : RNG.Gen} {set : List Int}, Usable g → set.Nodup → (∀ i ∈ set, 0 ≤ i ∧ i < o) → (set.length : Int) ≤ n →
    Fine (fun l => l.Nodup ∧ (∀ i ∈ l, 0 ≤ i ∧ i < o) ∧ (l.length : Int) = n) (sampleIndices lib aes o n fuel g set) := by
  induction fuel with
  | zero => intros; trivial
  | succ fuel ih =>
    intro g set hg hnd hr hl
    unfold sampleIndices
    split
    · next hlt =>
      refine Fine.bind (unif_fine hc hg (by omega)) ?_
      rintro ⟨i, g1⟩ ⟨h1, h2, h3⟩
      dsimp only at h1 h2 ⊢
      split
      · exact ih h3 hnd hr hl
      · next hi =>
        refine ih h3 ?_ ?_ (by simp; omega)
        · rw [List.nodup_append]
          exact ⟨hnd, by simp, by intro a ha b hb; rw [List.mem_singleton] at hb; subst hb; rintro rfl; exact hi ha⟩
        · intro j hj
          rcases List.mem_append.1 hj with hj | hj
          · exact hr j hj
          · rw [List.mem_singleton] at hj; subst hj; omega
    · exact ⟨hnd, hr, by omega⟩

theorem vecOf_eq (r : Rand T) (n : Nat) : vecOf r (n : Int) = .ok ((List.range n).map r.elems) := by
  unfold vecOf
  rw [if_neg (by omega), Int.toNat_natCast]

section
variable [Scalar T]

/-- The noise vector: `y[i]` at the positions `indices[i]`, where later entries count, 0 elsewhere. -/
theorem spread_eq {o n : Nat} {indices : List Int} {y : List T} (hi : indices.length = n) (hy : y.length = n) (hnd : indices.Nodup)
    (hr : ∀ i ∈ indices, 0 ≤ i ∧ i < (o : Int)) :
    ∃ mu, spread o n indices y = .ok mu ∧ mu.length = o ∧
      (∀ (i : Nat) (k : Nat) (a : T), indices[i]? = some (k : Int) → y[i]? = some a → mu[k]? = some a) ∧
      (∀ k : Nat, k < o → (k : Int) ∉ indices → mu[k]? = some 0) := by
  unfold spread
  rw [Int.toNat_natCast]
  obtain ⟨mu, h1, h2, h3, h4⟩ := loop_inv (fun i (mu : List T) => do
    let k ← rd indices i
    let yi ← rd y i
    if k < 0 then .ub "negative index" else
    wr mu k.toNat yi) (fun j mu => mu.length = o ∧
      (∀ (i : Nat) (k : Nat) (a : T), i < j → indices[i]? = some (k : Int) → y[i]? = some a → mu[k]? = some a) ∧
      (∀ k : Nat, k < o → (∀ i < j, indices[i]? ≠ some (k : Int)) → mu[k]? = some 0)) 0 n (List.replicate o 0)
    ⟨by simp, by intro i k a h; omega, by intro k hk _; simp [hk]⟩ (by
      rintro j mu - hj ⟨g1, g2, g3⟩
      have hji : j < indices.length := by omega
      have hjy : j < y.length := by omega
      obtain ⟨hp, hlt⟩ := hr indices[j] (List.getElem_mem _)
      have hnat : ((indices[j].toNat : Nat) : Int) = indices[j] := by omega
      refine ⟨mu.set indices[j].toNat y[j], ?_, ?_, ?_, ?_⟩
      · rw [rd_of_lt hji, Out.ok_bind, rd_of_lt hjy, Out.ok_bind, if_neg (by omega), wr_of_lt _ (by omega)]
      · simpa using g1
      · intro i k a hij hk ha
        by_cases e : i = j
        · subst e
          have : indices[i] = (k : Int) := by
            rw [List.getElem?_eq_getElem hji] at hk; simpa using hk
          rw [show indices[i].toNat = k by omega, List.getElem?_set, if_pos rfl, if_pos (by omega)]
          rw [List.getElem?_eq_getElem hjy] at ha
          exact ha
        · have hne : indices[j].toNat ≠ k := by
            intro he
            have h5 : indices[j]? = indices[i]? := by
              rw [hk, List.getElem?_eq_getElem hji]; congr 1; omega
            have := (List.getElem?_inj hji hnd).1 h5
            omega
          rw [List.getElem?_set, if_neg hne]
          exact g2 i k a (by omega) hk ha
      · intro k hk hno
        have hne : indices[j].toNat ≠ k := by
          intro he
          exact hno j (by omega) (by rw [List.getElem?_eq_getElem hji]; congr 1; omega)
        rw [List.getElem?_set, if_neg hne]
        exact g3 k hk (fun i hi => hno i (by omega)))
  refine ⟨mu, h1, h2, ?_, ?_⟩
  · intro i k a hk ha
    have := (List.getElem?_eq_some_iff.1 hk).1
    exact h3 i k a (by omega) hk ha
  · intro k hk hno
    refine h4 k hk ?_
    intro i _ he
    exact hno (List.mem_of_getElem? he)

/-- The multi-point function is `x` times the noise vector. -/
theorem pointSum_spread {o n : Nat} {indices : List Int} {y mu : List T} (hi : indices.length = n) (hy : y.length = n) (hnd : indices.Nodup)
    (h1 : ∀ (i : Nat) (k : Nat) (a : T), indices[i]? = some (k : Int) → y[i]? = some a → mu[k]? = some a)
    (h2 : ∀ k : Nat, k < o → (k : Int) ∉ indices → mu[k]? = some 0) (x : T) {k : Nat} (hk : k < o) :
    ∃ a, mu[k]? = some a ∧ MPFSS.pointSum x y indices k = x * a := by
  obtain ⟨e1, e2⟩ := MPFSS.C18_pointSum_distinct x y indices hnd k
  by_cases hm : (k : Int) ∈ indices
  · obtain ⟨i, hik⟩ := List.mem_iff_getElem?.1 hm
    have hil := (List.getElem?_eq_some_iff.1 hik).1
    have hiy : i < y.length := by omega
    exact ⟨y[i], h1 i k _ hik (List.getElem?_eq_getElem hiy), e1 i _ hik (List.getElem?_eq_getElem hiy)⟩
  · exact ⟨0, h2 k hk hm, by rw [e2 hm, mul_zero]⟩

end

end DVO.VOLE
