/-
C66: worker threads compute with the modulus of the calling thread.
-/
import Verif.Model.Contexts
import Verif.Model.ScalarTypes
import Mathlib.Data.ZMod.Basic

namespace DVO.Contexts
variable {σ : Type}

/-- The regions executed by a single thread that has modulus `p` installed. -/
def alone (p : Nat) : List (Region σ) → σ → Out σ
  | [], s => .ok s
  | r :: l, s => loop (r.body p) 0 r.count s >>= alone p l

/-- Every region that does not restore the context comes after one that does and that has at least as
    many threads (or it is executed by the calling thread only). -/
def Covered (l : List (Region σ)) : Prop :=
  ∀ (i : Nat) (r : Region σ), l[i]? = some r → r.restore = false →
    r.team ≤ 1 ∨ ∃ (j : Nat) (r' : Region σ), j < i ∧ l[j]? = some r' ∧ r'.restore = true ∧ r.team ≤ r'.team

/-- The iterations are executed by threads of the team. -/
def Scheduled (l : List (Region σ)) : Prop := ∀ r ∈ l, ∀ j, r.who j < r.team

theorem run_known {r : Region σ} {P : Pool} {p : Nat} (h : ∀ i < r.team, r.enter P i = some p) (hw : ∀ j, r.who j < r.team) (s : σ) :
    r.run P s = loop (r.body p) 0 r.count s := by
  unfold Region.run
  congr 1
  funext j s
  unfold inThread
  rw [h _ (hw j)]

theorem call_known {p : Nat} (l : List (Region σ)) : ∀ (n : Nat) (P : Pool), 1 ≤ n → (∀ i < n, P i = some p) → (∀ r ∈ l, ∀ j, r.who j < r.team) →
    (∀ (i : Nat) (r : Region σ), l[i]? = some r → r.restore = false →
      r.team ≤ n ∨ ∃ (j : Nat) (r' : Region σ), j < i ∧ l[j]? = some r' ∧ r'.restore = true ∧ r.team ≤ r'.team) →
    ∀ s, (call l P s >>= fun x => .ok x.1) = alone p l s ∧ ∀ s' P', call l P s = .ok (s', P') → P' 0 = some p := by
  induction l with
  | nil => intro n P h1 hP _ _ s; exact ⟨rfl, fun s' P' e => by cases e; exact hP 0 (by omega)⟩
  | cons r l ih =>
    intro n P h1 hP hw hc s
    have hw0 := hw r (by simp)
    have key : ∃ n', 1 ≤ n' ∧ n ≤ n' ∧ r.team ≤ n' ∧ (∀ i < n', r.enter P i = some p) ∧ (r.restore = true → n' = max n r.team) ∧ (r.restore = false → n' = n) := by
      cases hr : r.restore with
      | true =>
        refine ⟨max n r.team, by omega, by omega, by omega, fun i hi => ?_, fun _ => rfl, fun h => by cases h⟩
        unfold Region.enter
        rw [hr, if_pos rfl]
        split
        · exact hP 0 (by omega)
        · exact hP i (by omega)
      | false =>
        rcases hc 0 r rfl hr with h | ⟨j, _, hj, _⟩
        · refine ⟨n, h1, le_refl _, h, fun i hi => ?_, fun h' => absurd h' (by simp), fun _ => rfl⟩
          unfold Region.enter
          rw [hr, if_neg (by simp)]
          exact hP i hi
        · omega
    obtain ⟨n', k1, k2, k3, k4, k5, k6⟩ := key
    have ih' := ih n' (r.enter P) k1 k4 (fun r' hr' => hw r' (by simp [hr'])) (fun i r' hi hr' => by
      rcases hc (i + 1) r' (by simpa using hi) hr' with h | ⟨j, r'', hj, hl, hr2, hle⟩
      · exact .inl (by omega)
      · cases j with
        | zero =>
          rw [List.getElem?_cons_zero] at hl
          cases hl
          exact .inl (by omega)
        | succ j => exact .inr ⟨j, r'', by omega, by simpa using hl, hr2, hle⟩)
    have e : r.run P s = loop (r.body p) 0 r.count s := run_known (fun i hi => k4 i (by omega)) hw0 s
    unfold call alone
    rw [e]
    cases loop (r.body p) 0 r.count s with
    | ok s1 => exact ih' s1
    | err => exact ⟨rfl, fun s' P' h => by cases h⟩
    | throws => exact ⟨rfl, fun s' P' h => by cases h⟩
    | ub => exact ⟨rfl, fun s' P' h => by cases h⟩
    | diverge => exact ⟨rfl, fun s' P' h => by cases h⟩

/-- C66: whatever moduli the other threads have installed (or none), however many threads there are and
    however the iterations are distributed over them, a call whose regions are covered has the effect of a
    single thread with the caller's modulus, which the caller keeps. -/
theorem C66_calls (l : List (Region σ)) (hc : Covered l) (hw : Scheduled l) (P : Pool) (p : Nat) (hP : P 0 = some p) (s : σ) :
    (call l P s >>= fun x => .ok x.1) = alone p l s ∧ ∀ s' P', call l P s = .ok (s', P') → P' 0 = some p :=
  call_known l 1 P (le_refl _) (fun i hi => by rw [show i = 0 by omega]; exact hP) hw hc s

theorem covered_restore {l : List (Region σ)} (h : ∀ r ∈ l, r.restore = true) : Covered l := by
  intro i r hi hr
  rw [h r (List.mem_of_getElem? hi)] at hr
  cases hr

/-- C66 for the protocols below `DistributedVectorOLE`: every region that computes with elements restores
    the context. -/
theorem C66_protocols (omp : Nat) (who who' who'' : Nat → Nat) (k : Nat) (setup unpack sums : Nat → Nat → σ → Out σ) :
    Covered (rot omp who k unpack) ∧ Covered (spfss omp who who' k unpack sums) ∧ Covered (mpfssValue omp who who' k unpack sums) ∧
    Covered (mpfssIndex omp who who' who'' k setup unpack sums) ∧ Covered (create omp : List (Region σ)) := by
  refine ⟨?_, ?_, ?_, ?_, ?_⟩ <;> apply covered_restore <;>
    simp [rot, spfss, mpfssValue, mpfssIndex, create]

/-- C66 for the expansions: Eigen's threads have the caller's modulus when the products are computed, because
    they took part in the regions of MPFSS before, if Eigen does not use more threads than OpenMP's default.
    The region in `Create` is not needed for this, and changing the number of threads or the modulus
    between calls does no harm. -/
theorem C66_expand (omp eigen : Nat) (he : eigen ≤ omp) (who : Nat → Nat → Nat) (k n : Nat)
    (setup unpack sums col col' : Nat → Nat → σ → Out σ) :
    Covered (expandSender omp eigen who k n setup unpack sums col col') ∧ Covered (expandReceiver omp eigen who k n unpack sums col) := by
  constructor
  · intro i r hi hr
    refine .inr ⟨0, ⟨true, omp, who 0, k, setup⟩, ?_, rfl, rfl, ?_⟩
    · cases i with
      | zero => cases hi; cases hr
      | succ i => omega
    · have hm := List.mem_of_getElem? hi
      simp only [expandSender, mpfssIndex, spfss, rot, product, List.cons_append, List.nil_append, List.mem_cons, List.not_mem_nil, or_false] at hm
      rcases hm with rfl | rfl | rfl | rfl | rfl
      · cases hr
      · cases hr
      · cases hr
      · exact he
      · exact he
  · intro i r hi hr
    refine .inr ⟨0, ⟨true, omp, who 0, k, unpack⟩, ?_, rfl, rfl, ?_⟩
    · cases i with
      | zero => cases hi; cases hr
      | succ i => omega
    · have hm := List.mem_of_getElem? hi
      simp only [expandReceiver, mpfssValue, spfss, rot, product, List.cons_append, List.nil_append, List.mem_cons, List.not_mem_nil, or_false] at hm
      rcases hm with rfl | rfl | rfl
      · cases hr
      · cases hr
      · exact he

/-! ### The products on representatives are those of `VOLE.vecMat` -/

/-- The element that a representative stands for. -/
def rep (p a : Nat) : ZZp p := ((a : ZMod p) : ZMod p)

theorem colDot_rep {p : Nat} (hp : 0 < p) {u : List Nat} (hu : ∀ a ∈ u, a < p) : ∀ {c : List (Nat × Nat)}, (∀ e ∈ c, e.1 < u.length ∧ e.2 < p) →
    ∃ x < p, colDot p u c = .ok x ∧ VOLE.colDot (u.map (rep p)) (c.map (fun e => (e.1, rep p e.2))) = .ok (rep p x) := by
  intro c hc
  induction c with
  | nil =>
    refine ⟨0, hp, rfl, ?_⟩
    show Out.ok (0 : ZZp p) = .ok (rep p 0)
    congr 1
    exact (Nat.cast_zero (R := ZMod p)).symm
  | cons e c ih =>
    obtain ⟨x, hx, e1, e2⟩ := ih (fun e' he' => hc e' (by simp [he']))
    obtain ⟨r, y⟩ := e
    obtain ⟨h1, h2⟩ : r < u.length ∧ y < p := hc (r, y) (by simp)
    have ha : u[r] < p := hu _ (List.getElem_mem h1)
    refine ⟨(u[r] * y % p + x) % p, Nat.mod_lt _ hp, ?_, ?_⟩
    · unfold colDot
      rw [show rd u r = .ok u[r] by unfold rd; rw [List.getElem?_eq_getElem h1], Out.ok_bind, e1, Out.ok_bind]
      unfold mulMod
      rw [if_pos ⟨ha, h2⟩, Out.ok_bind]
      unfold addMod
      rw [if_pos ⟨Nat.mod_lt _ hp, hx⟩]
    · rw [List.map_cons]
      unfold VOLE.colDot
      rw [show rd (u.map (rep p)) r = .ok (rep p u[r]) by unfold rd; rw [List.getElem?_map, List.getElem?_eq_getElem h1]; rfl,
        Out.ok_bind, e2, Out.ok_bind]
      congr 1
      have : (u[r] : ZMod p) * (y : ZMod p) + (x : ZMod p) = (((u[r] * y % p + x) % p : Nat) : ZMod p) := by
        rw [ZMod.natCast_mod, Nat.cast_add, ZMod.natCast_mod, Nat.cast_mul]
      exact this

/-- C66: with modulus `p` in every thread of the team, the product on representatives is the product of the
    model (`VOLE.vecMat`) in the integers modulo `p`. -/
theorem C66_product {p : Nat} (hp : 0 < p) {u : List Nat} (hu : ∀ a ∈ u, a < p) {cols : List (List (Nat × Nat))}
    (hc : ∀ c ∈ cols, ∀ e ∈ c, e.1 < u.length ∧ e.2 < p) (eigen : Nat) (who : Nat → Nat) (hw : ∀ j, who j < eigen) (P : Pool)
    (hP : ∀ i < eigen, P i = some p) (out : List Nat) (ho : out.length = cols.length) :
    ∃ xs, (product eigen who cols.length (column u cols)).run P out = .ok xs ∧ (∀ x ∈ xs, x < p) ∧
      VOLE.vecMat (u.map (rep p)) ⟨u.length, cols.map (fun c => c.map (fun e => (e.1, rep p e.2)))⟩ = .ok (xs.map (rep p)) := by
  have hex : ∀ c ∈ cols, ∃ x < p, colDot p u c = .ok x ∧ VOLE.colDot (u.map (rep p)) (c.map (fun e => (e.1, rep p e.2))) = .ok (rep p x) :=
    fun c h => colDot_rep hp hu (hc c h)
  have hm : ∃ xs : List Nat, xs.length = cols.length ∧ (∀ x ∈ xs, x < p) ∧ (∀ (j : Nat) c, cols[j]? = some c → ∃ x, xs[j]? = some x ∧ colDot p u c = .ok x) ∧
      VOLE.mapOut (VOLE.colDot (u.map (rep p))) (cols.map (fun c => c.map (fun e => (e.1, rep p e.2)))) = .ok (xs.map (rep p)) := by
    clear ho hc
    induction cols with
    | nil => exact ⟨[], rfl, by simp, by simp, rfl⟩
    | cons c cols ih =>
      obtain ⟨xs, h1, h2, h3, h4⟩ := ih (fun c hc => hex c (by simp [hc]))
      obtain ⟨x, hx, e1, e2⟩ := hex c (by simp)
      refine ⟨x :: xs, by simp [h1], by simpa using ⟨hx, h2⟩, ?_, ?_⟩
      · intro j c' hj
        cases j with
        | zero => cases hj; exact ⟨x, rfl, e1⟩
        | succ j => exact h3 j c' (by simpa using hj)
      · rw [List.map_cons]
        unfold VOLE.mapOut
        rw [e2, Out.ok_bind, h4, Out.ok_bind]
        rfl
  obtain ⟨xs, h1, h2, h3, h4⟩ := hm
  refine ⟨xs, ?_, h2, ?_⟩
  · rw [run_known (r := product eigen who cols.length (column u cols)) (P := P) (p := p) (fun i hi => hP i hi) hw]
    refine loop_eq (fun j out => out.length = cols.length ∧ out.take j = xs.take j) ⟨ho, by simp⟩ ?_ ?_
    · rintro j s - hj ⟨hs1, hs2⟩
      replace hj : j < cols.length := by simpa [product] using hj
      obtain ⟨x, hx, ex⟩ := h3 j _ (List.getElem?_eq_getElem hj)
      refine ⟨s.set j x, ?_, by simp [hs1], ?_⟩
      · show column u cols p j s = _
        unfold column
        rw [show rd cols j = .ok cols[j] by unfold rd; rw [List.getElem?_eq_getElem hj], Out.ok_bind, ex, Out.ok_bind]
        unfold wr
        rw [if_pos (by omega)]
      · rw [List.take_add_one, List.take_add_one, List.take_set_of_le (le_refl _), hs2, hx, List.getElem?_set_self (by omega)]
    · rintro s ⟨hs1, hs2⟩
      have hn : 0 + (product eigen who cols.length (column u cols)).count = cols.length := by simp [product]
      rw [hn] at hs2
      rwa [List.take_of_length_le (by omega), List.take_of_length_le (by omega)] at hs2
  · unfold VOLE.vecMat
    rw [if_neg (by simp)]
    exact h4

/-! ### Without enough restored threads -/

/-- The expansion of a sender with nothing to do before the products. -/
def tiny (omp eigen : Nat) (who : Nat → Nat → Nat) (u : List Nat) (cols : List (List (Nat × Nat))) : List (Region (List Nat)) :=
  expandSender omp eigen who 0 cols.length (fun _ _ s => .ok s) (fun _ _ s => .ok s) (fun _ _ s => .ok s) (column u cols) (fun _ _ s => .ok s)

/-- C66 fails if Eigen uses more threads than OpenMP (e.g. after `Eigen::setNbThreads`), even if `Create` has
    restored the context in its threads: a thread without a modulus is undefined behaviour, and one with an
    older modulus gives a wrong product. -/
theorem C66_more_threads_false : ∃ (who : Nat → Nat → Nat) (u : List Nat) (cols : List (List (Nat × Nat))) (P P' : Pool),
    Scheduled (create 1 ++ tiny 1 2 who u cols) ∧ P 0 = some 7 ∧ P' 0 = some 7 ∧
    alone 7 (create 1 ++ tiny 1 2 who u cols) [0, 0] = .ok [1, 1] ∧
    (call (create 1 ++ tiny 1 2 who u cols) P [0, 0] >>= fun x => .ok x.1) = .ub "no modulus installed" ∧
    (call (create 1 ++ tiny 1 2 who u cols) P' [0, 0] >>= fun x => .ok x.1) = .ok [1, 4] := by
  refine ⟨fun r j => if r = 3 then j % 2 else 0, [5], [[(0, 3)], [(0, 3)]], fun i => if i = 0 then some 7 else none,
    fun i => if i = 0 then some 7 else some 11, ?_, rfl, rfl, by decide +kernel, by decide +kernel, by decide +kernel⟩
  intro r hr j
  simp only [create, tiny, expandSender, mpfssIndex, spfss, rot, product, List.cons_append, List.nil_append, List.mem_cons, List.not_mem_nil,
    or_false] at hr
  rcases hr with rfl | rfl | rfl | rfl | rfl | rfl
  · exact Nat.one_pos
  · exact Nat.one_pos
  · exact Nat.one_pos
  · exact Nat.one_pos
  · exact Nat.mod_lt _ (by omega)
  · exact Nat.two_pos

/-- With two threads in both, the same pools do no harm. -/
example : let who : Nat → Nat → Nat := fun r j => if r = 3 then j % 2 else 0
    let l := tiny 2 2 who [5] [[(0, 3)], [(0, 3)]]
    Covered l ∧ (call l (fun i => if i = 0 then some 7 else none) [0, 0] >>= fun x => .ok x.1) = .ok [1, 1] ∧
    (call l (fun i => if i = 0 then some 7 else some 11) [0, 0] >>= fun x => .ok x.1) = .ok [1, 1] :=
  ⟨(C66_expand 2 2 (le_refl _) _ 0 2 _ _ _ (column [5] [[(0, 3)], [(0, 3)]]) _).1, by decide +kernel, by decide +kernel⟩

/-- The hypotheses of `C66_product` for that product. -/
example : (∀ a ∈ [5], a < 7) ∧ (∀ c ∈ [[(0, 3)], [(0, 3)]], ∀ e ∈ c, e.1 < [5].length ∧ e.2 < 7) ∧
    (product 2 (· % 2) 2 (column [5] [[(0, 3)], [(0, 3)]])).run (fun _ => some 7) [0, 0] = .ok [1, 1] := by decide +kernel

end DVO.Contexts
