/-
C38: the code generator.
-/
import Verif.Props.VOLELocal3

set_option linter.unusedSectionVars false
namespace DVO.VOLE
open Net MPFSS
variable {T : Type} [Scalar T]

/-- A sparse matrix of the shape promised in distributed_vector_ole.h:361-418: the entries of each
    column are in different rows, all of which exist, and there are at most 10 of them. There is at least
    one row. -/
def Promised (rows cols : Int) (c : Sparse T) : Prop :=
  c.rows = rows ∧ (c.cols.length : Int) = cols ∧ 1 ≤ rows ∧
  ∀ col ∈ c.cols, col.length ≤ 10 ∧ (col.map Prod.fst).Nodup ∧ ∀ e ∈ col, (e.1 : Int) < rows

theorem sampleCol_shape {lib : Lib} {aes : Cipher} {rows : Int} {elems : List T} {col : Nat} {g : RNG.Gen} {r : List (Nat × T) × RNG.Gen}
    (h : sampleCol lib aes rows elems col g = .ok r) : r.1.length ≤ 10 ∧ (r.1.map Prod.fst).Nodup ∧ ∀ e ∈ r.1, (e.1 : Int) < rows := by
  unfold sampleCol at h
  have := loop_post (fun i (s : List (Nat × T) × RNG.Gen) => s.1.length ≤ i ∧ (s.1.map Prod.fst).Nodup ∧ ∀ e ∈ s.1, (e.1 : Int) < rows) ?_ _ _ _ _
    ⟨by simp, by simp, by simp⟩ h
  · simpa [nonzeros] using this
  rintro i ⟨s, g⟩ r ⟨h1, h2, h3⟩ e
  obtain ⟨⟨row, g'⟩, -, e⟩ := Out.bind_eq_ok.1 e
  dsimp only at e
  split at e
  · cases e
  next hr =>
  obtain ⟨x, -, e⟩ := Out.bind_eq_ok.1 e
  cases e
  dsimp only at h1 h2 h3 ⊢
  unfold setEntry
  split
  · refine ⟨by simp; omega, ?_, ?_⟩
    · rw [List.map_map]
      have : (Prod.fst ∘ fun e : Nat × T => if e.1 = row.toNat then (row.toNat, x) else e) = Prod.fst := by
        funext e; simp only [Function.comp]; split <;> simp_all
      rw [this]; exact h2
    · intro e he
      obtain ⟨e', h4, rfl⟩ := List.mem_map.1 he
      split
      · dsimp only; omega
      · exact h3 _ h4
  · next hn =>
    refine ⟨by simp; omega, ?_, ?_⟩
    · rw [List.map_append, List.nodup_append]
      refine ⟨h2, by simp, ?_⟩
      rintro a ha b hb rfl
      simp only [List.map_cons, List.map_nil, List.mem_singleton] at hb
      obtain ⟨e, h4, h5⟩ := List.mem_map.1 ha
      exact hn (List.any_eq_true.2 ⟨e, h4, by simp [h5, hb]⟩)
    · intro e he
      rcases List.mem_append.1 he with he | he
      · exact h3 e he
      · simp only [List.mem_singleton] at he
        subst he; dsimp only; omega

theorem sampleCode_shape {lib : Lib} {aes : Cipher} {rows : Int} {cols : Nat} {g : RNG.Gen} {c : Sparse T}
    (h : sampleCode lib aes rows cols g = .ok c) : Promised rows cols c := by
  obtain ⟨h1, h2⟩ := sampleCode_dims h
  unfold sampleCode at h
  obtain ⟨⟨es, g1⟩, -, h⟩ := Out.bind_eq_ok.1 h
  dsimp only at h
  split at h
  · cases h
  next hr =>
  refine ⟨h1, by omega, by omega, ?_⟩
  obtain ⟨⟨cs, g2⟩, h3, h⟩ := Out.bind_eq_ok.1 h
  cases h
  refine loop_post (fun i (s : List (List (Nat × T)) × RNG.Gen) => ∀ col ∈ s.1, col.length ≤ 10 ∧ (col.map Prod.fst).Nodup ∧ ∀ e ∈ col, (e.1 : Int) < rows) ?_ _ _ _ _
    (by simp) h3
  rintro i ⟨s, g⟩ r hs e
  obtain ⟨⟨c, g'⟩, h4, e⟩ := Out.bind_eq_ok.1 e
  cases e
  intro col hc
  rcases List.mem_append.1 hc with hc | hc
  · exact hs col hc
  · rw [List.mem_singleton] at hc
    subst hc
    exact sampleCol_shape h4

/-- What `PrecomputeCommon` does with the seed. -/
def fromSeed (E : Env T) (o : Int) (seed : List (BitVec 8)) : VM T Unit := do
  let r ← VM.draw E
  let rng ← VM.lift (RNG.create r.junk seed (nonzeros * o))
  if !(Scalar.canHash T (ROT.secPerLeaf E.sec (nonzeros * o)) 128) then
    VM.lift (.err .invalidArgument "Cannot sample enough random elements for the code generator with the given statistical security") else
  let s ← VM.get
  let code ← VM.lift (sampleCode E.lib E.aes s.voleSize o.toNat rng)
  VM.modify (fun s => { s with code := code })

theorem common_cases (E : Env T) (o : Int) (s : VState T) :
    (∃ st, MPFSS.updateBuckets E.thr s.mpfss o s.noise = (.ok (), st) ∧ 0 ≤ o ∧ precomputeCommon E o s =
      (exchangeSeed E >>= fromSeed E o) { s with mpfss := st, code := ⟨s.voleSize, List.replicate o.toNat []⟩ }) ∨
    ∃ e s', precomputeCommon E o s = .ret (e, s') ∧ ∀ a, e ≠ .ok a := by
  unfold precomputeCommon
  rw [VM.get_bind, VM.bind_apply]
  unfold updateBuckets
  generalize MPFSS.updateBuckets E.thr s.mpfss o s.noise = x
  obtain ⟨x, st⟩ := x
  dsimp only
  cases x with
  | ok a =>
    by_cases ho : o < 0
    · right
      refine ⟨.throws "std::length_error", { s with mpfss := st }, ?_, by simp⟩
      show (if o < 0 then _ else _ : VM T Unit) _ = _
      rw [if_pos ho]; rfl
    · left
      refine ⟨st, rfl, by omega, ?_⟩
      show (if o < 0 then _ else _ : VM T Unit) _ = _
      rw [if_neg ho]; rfl
  | err c m => exact .inr ⟨.err c m, _, rfl, by simp⟩
  | throws m => exact .inr ⟨.throws m, _, rfl, by simp⟩
  | ub w => exact .inr ⟨.ub w, _, rfl, by simp⟩
  | diverge => exact .inr ⟨.diverge, _, rfl, by simp⟩

theorem common_eq (E : Env T) {o : Int} (ho : 0 ≤ o) {s : VState T} {st : MPFSS.State}
    (h : MPFSS.updateBuckets E.thr s.mpfss o s.noise = (.ok (), st)) : precomputeCommon E o s =
      (exchangeSeed E >>= fromSeed E o) { s with mpfss := st, code := ⟨s.voleSize, List.replicate o.toNat []⟩ } := by
  unfold precomputeCommon
  rw [VM.get_bind, VM.bind_apply]
  unfold updateBuckets
  rw [h]
  show (if o < 0 then _ else _ : VM T Unit) _ = _
  rw [if_neg (by omega)]; rfl

/-- With the seed, everything is a local computation. -/
theorem fromSeed_local (E : Env T) (o : Int) (seed : List (BitVec 8)) (s : VState T) : ∃ x s', fromSeed E o seed s = .ret (x, s') ∧
    (x = .ok () → ∃ g, RNG.create (E.rand s.pos).junk seed (nonzeros * o) = .ok g ∧
      Scalar.canHash T (ROT.secPerLeaf E.sec (nonzeros * o)) 128 = true ∧ sampleCode E.lib E.aes s.voleSize o.toNat g = .ok s'.code) ∧
    (∀ g c, RNG.create (E.rand s.pos).junk seed (nonzeros * o) = .ok g → Scalar.canHash T (ROT.secPerLeaf E.sec (nonzeros * o)) 128 = true →
      sampleCode E.lib E.aes s.voleSize o.toNat g = .ok c → x = .ok () ∧ s'.code = c) := by
  unfold fromSeed
  rw [VM.draw_bind]
  cases hg : RNG.create (E.rand s.pos).junk seed (nonzeros * o) with
  | ok g =>
    rw [VM.lift_ok_bind]
    split
    · next hc => exact ⟨_, _, rfl, by simp, fun g' c _ h => by simp [h] at hc⟩
    · next hc =>
      rw [VM.get_bind]
      dsimp only
      cases hs : sampleCode (T := T) E.lib E.aes s.voleSize o.toNat g with
      | ok c => exact ⟨_, _, rfl, fun _ => ⟨g, rfl, by simpa using hc, hs⟩, fun g' c' hg' _ h => by cases hg'; rw [hs] at h; cases h; exact ⟨rfl, rfl⟩⟩
      | err c m => exact ⟨_, _, rfl, by simp, fun g' c' hg' _ h => by cases hg'; rw [hs] at h; cases h⟩
      | throws m => exact ⟨_, _, rfl, by simp, fun g' c' hg' _ h => by cases hg'; rw [hs] at h; cases h⟩
      | ub w => exact ⟨_, _, rfl, by simp, fun g' c' hg' _ h => by cases hg'; rw [hs] at h; cases h⟩
      | diverge => exact ⟨_, _, rfl, by simp, fun g' c' hg' _ h => by cases hg'; rw [hs] at h; cases h⟩
  | err c m => exact ⟨_, _, rfl, by simp, by simp⟩
  | throws m => exact ⟨_, _, rfl, by simp, by simp⟩
  | ub w => exact ⟨_, _, rfl, by simp, by simp⟩
  | diverge => exact ⟨_, _, rfl, by simp, by simp⟩

/-- The exchange of the seed as a send or a receive. -/
theorem exchange_send (E : Env T) (h : E.lower = true) (f : List (BitVec 8) → VM T Unit) (s : VState T) : (exchangeSeed E >>= f) s =
    .send E.c.main (.bytes ((List.range 32).map (E.rand s.pos).byte)) (f ((List.range 32).map (E.rand s.pos).byte) { s with pos := s.pos + 1 }) := by
  unfold exchangeSeed
  rw [VM.bind_assoc, VM.draw_bind, h]
  rfl

theorem exchange_recv (E : Env T) (h : E.lower = false) (f : List (BitVec 8) → VM T Unit) (s : VState T) : (exchangeSeed E >>= f) s =
    .recv E.c.main (fun m => (VM.lift (PM.unBytes m) >>= f) { s with pos := s.pos + 1 }) := by
  unfold exchangeSeed
  rw [VM.bind_assoc, VM.draw_bind, h]
  rfl

theorem common_checked {E : Env T} {o : Int} {s s' : VState T} (h : Returns (precomputeCommon E o s) (.ok (), s')) :
    Scalar.canHash T (ROT.secPerLeaf E.sec (nonzeros * o)) 128 = true := by
  rcases common_cases E o s with ⟨st, -, ho, e⟩ | ⟨x, t, e, hx⟩
  swap
  · rw [e] at h
    cases h
    exact absurd rfl (hx _)
  rw [e] at h
  have key : ∀ seed p, Returns (fromSeed E o seed { s with mpfss := st, code := ⟨s.voleSize, List.replicate o.toNat []⟩, pos := p }) (.ok (), s') →
      Scalar.canHash T (ROT.secPerLeaf E.sec (nonzeros * o)) 128 = true := by
    intro seed p hr
    obtain ⟨x, t, e1, h1, -⟩ := fromSeed_local E o seed { s with mpfss := st, code := ⟨s.voleSize, List.replicate o.toNat []⟩, pos := p }
    rw [e1] at hr
    cases hr
    obtain ⟨g, -, h2, -⟩ := h1 rfl
    exact h2
  cases hl : E.lower with
  | true =>
    rw [exchange_send E hl] at h
    cases h
    rename_i h
    exact key _ _ h
  | false =>
    rw [exchange_recv E hl] at h
    cases h with | recv _ _ m _ h =>
    cases m with
    | bytes b => exact key b _ h
    | _ => cases h

/-- C38: whatever the peer and the standard library do, a generator obtained by an OK
    `PrecomputeCommon` has as many rows as the seed has elements (at least one), one column per output, and at most
    10 entries per column, in existing and different rows. -/
theorem C38_shape {E : Env T} {o : Int} {s s' : VState T} (h : Returns (precomputeCommon E o s) (.ok (), s')) :
    Promised s.voleSize o s'.code := by
  rcases common_cases E o s with ⟨st, -, ho, e⟩ | ⟨x, t, e, hx⟩
  · rw [e] at h
    have key : ∀ seed p, Returns (fromSeed E o seed { s with mpfss := st, code := ⟨s.voleSize, List.replicate o.toNat []⟩, pos := p }) (.ok (), s') →
        Promised s.voleSize o s'.code := by
      intro seed p hr
      obtain ⟨x, t, e1, h1, -⟩ := fromSeed_local E o seed { s with mpfss := st, code := ⟨s.voleSize, List.replicate o.toNat []⟩, pos := p }
      rw [e1] at hr
      cases hr
      obtain ⟨g, -, -, h2⟩ := h1 rfl
      have := sampleCode_shape h2
      rwa [show ((o.toNat : Nat) : Int) = o by omega] at this
    cases hl : E.lower with
    | true =>
      rw [exchange_send E hl] at h
      cases h
      rename_i h
      exact key _ _ h
    | false =>
      rw [exchange_recv E hl] at h
      cases h with | recv _ _ m _ h =>
      cases m with
      | bytes b => exact key b _ h
      | _ => cases h
  · rw [e] at h
    cases h
    exact absurd rfl (hx _)

/-- Uniqueness, for one party that sends the seed and one that receives it. -/
theorem common_joint {A B : Env T} (hl : A.lower = true) (hl' : B.lower = false) (hc : B.c.main = A.c.main) {o o' : Int} {s r : VState T}
    {x y s' r' va vb} (h : Joint (precomputeCommon A o s) (precomputeCommon B o' r) (x, s') (y, r') va vb) (hx : x = .ok ()) (hy : y = .ok ()) :
    ∃ seed g g' j j', seed.length = 32 ∧ RNG.create j seed (nonzeros * o) = .ok g ∧ RNG.create j' seed (nonzeros * o') = .ok g' ∧
      sampleCode A.lib A.aes s.voleSize o.toNat g = .ok s'.code ∧ sampleCode B.lib B.aes r.voleSize o'.toNat g' = .ok r'.code := by
  have hret : ∀ {p : Proc (Msg T) (Out Unit × VState T)} {e s2}, Returns p (.ok (), s') → p = .ret (e, s2) → e ≠ .ok () → False := by
    intro p e s2 h1 h2 h3; rw [h2] at h1; cases h1; exact h3 rfl
  have h1 : Returns (precomputeCommon A o s) (x, s') := h.computes.returns
  have h2 : Returns (precomputeCommon B o' r) (y, r') := h.computes.returnsRight
  subst hx hy
  rcases common_cases A o s with ⟨st, -, ho, e⟩ | ⟨x, t, e, hx⟩
  swap
  · rw [e] at h1; cases h1; exact absurd rfl (hx _)
  rcases common_cases B o' r with ⟨st', -, ho', e'⟩ | ⟨x, t, e', hx⟩
  swap
  · rw [e'] at h2; cases h2; exact absurd rfl (hx _)
  rw [e, e', exchange_send A hl, exchange_recv B hl', hc] at h
  obtain ⟨x, t, f1, k1, -⟩ := fromSeed_local A o ((List.range 32).map (A.rand s.pos).byte)
    { s with mpfss := st, code := ⟨s.voleSize, List.replicate o.toNat []⟩, pos := s.pos + 1 }
  obtain ⟨y, t', f2, k2, -⟩ := fromSeed_local B o' ((List.range 32).map (A.rand s.pos).byte)
    { r with mpfss := st', code := ⟨r.voleSize, List.replicate o'.toNat []⟩, pos := r.pos + 1 }
  have J := Joint.sendRecv (ch := A.c.main) (m := Msg.bytes ((List.range 32).map (A.rand s.pos).byte)) (k := .ret (x, t))
    (k' := fun m => (VM.lift (PM.unBytes m) >>= fromSeed B o') { r with mpfss := st', code := ⟨r.voleSize, List.replicate o'.toNat []⟩, pos := r.pos + 1 })
    (a := (x, t)) (b := (y, t')) (va := []) (vb := []) (by
      rw [show PM.unBytes (Msg.bytes ((List.range 32).map (A.rand s.pos).byte) : Msg T) = .ok ((List.range 32).map (A.rand s.pos).byte) from rfl,
        VM.lift_ok_bind, f2]
      exact Joint.ret _ _)
  rw [f1] at h
  obtain ⟨u1, u2, -, -⟩ := Joint.unique h J
  cases u1
  cases u2
  obtain ⟨g, hg, -, hs⟩ := k1 rfl
  obtain ⟨g', hg', -, hs'⟩ := k2 rfl
  exact ⟨_, g, g', _, _, by simp, hg, hg', hs, hs'⟩

/-- C38: two parties with different ids that use the same cipher and the same compiler and library
    obtain the same generator, in every interleaving in which both calls return OK. -/
theorem C38_same {A B : Env T} (hl : B.lower = !A.lower) (hc : B.c.main = A.c.main) (haes : B.aes = A.aes) (hlib : B.lib = A.lib) {o : Int}
    {s r s' r' : VState T} (hv : s.voleSize = r.voleSize) {va vb}
    (h : Computes (precomputeCommon A o s) (precomputeCommon B o r) (.ok (), s') (.ok (), r') va vb) : s'.code = r'.code := by
  cases hA : A.lower with
  | true =>
    obtain ⟨seed, g, g', j, j', -, h1, h2, h3, h4⟩ := common_joint hA (by rw [hl, hA]; rfl) hc h.joint rfl rfl
    rw [create_junk j' j, h1] at h2
    cases h2
    rw [hlib, haes, ← hv, h3] at h4
    exact Out.ok.inj h4
  | false =>
    obtain ⟨seed, g, g', j, j', -, h1, h2, h3, h4⟩ := common_joint (by rw [hl, hA]; rfl) hA hc.symm h.joint.swap rfl rfl
    rw [create_junk j' j, h1] at h2
    cases h2
    rw [← hlib, ← haes, hv, h3] at h4
    exact (Out.ok.inj h4).symm

/-! ### What the generator is made of -/

/-- The elements are made of consecutive pairs of words of the stream of the shared seed, in the order
    chosen by the compiler. -/
def element (T : Type) [Scalar T] (hiFirst : Bool) (aes : Cipher) (seed : List (BitVec 8)) (i : Nat) : T :=
  let w := RNG.stream aes (RNG.load128 seed) (RNG.load128 (seed.drop 16))
  Scalar.ofU128 (if hiFirst then w (2 * i) ++ w (2 * i + 1) else w (2 * i + 1) ++ w (2 * i))

theorem word_call (aes : Cipher) (g : RNG.Gen) (n : Nat) {w : BitVec 64} (h : RNG.call aes g n = .ok w) :
    word aes (RNG.after aes g n) = .ok (w, RNG.after aes g (n + 1)) := by
  show word aes (RNG.after aes g n) = .ok (w, (RNG.next aes (RNG.after aes g n)).2)
  unfold RNG.call at h
  unfold word
  generalize RNG.next aes (RNG.after aes g n) = x at h
  obtain ⟨x, g'⟩ := x
  cases h
  rfl

theorem sampleElems_eq (lib : Lib) (aes : Cipher) (junk : RNG.Gen) (seed : List (BitVec 8)) (hs : 32 ≤ seed.length) (n : Nat) (h0 : 0 < n)
    (he : n % 2 = 0) (hn : n ≤ 2 ^ 40) {g : RNG.Gen} (hg : RNG.create junk seed n = .ok g) :
    sampleElems lib aes n g = .ok (tab n (element T lib.hiFirst aes seed), RNG.after aes g (2 * n)) := by
  obtain ⟨g', h1, hat, h2⟩ := RNG.create_at aes junk seed n hs
  rw [hg] at h1
  cases h1
  have hsz : RNG.size n = n := by unfold RNG.size; split <;> omega
  rw [hsz] at hat h2
  have hB : n * (2 ^ 48 / (n / 2)) ≥ 2 * n := by
    rw [Nat.mul_comm 2]
    refine Nat.mul_le_mul_left _ ((Nat.le_div_iff_mul_le (by omega)).2 (by omega))
  have hw : ∀ i, i < 2 * n → word aes (RNG.after aes g i) = .ok (RNG.stream aes (RNG.load128 seed) (RNG.load128 (seed.drop 16)) i, RNG.after aes g (i + 1)) := by
    intro i hi
    refine word_call _ _ _ ?_
    rw [RNG.call_eq h2 hat i (by omega)]
    unfold RNG.bufWord
    rw [show 2 * (n / 2) = n by omega, if_pos (Nat.mod_lt _ (by omega)), Nat.div_add_mod' i n]
  unfold sampleElems
  refine loop_eq (fun i s => s = (tab i (element T lib.hiFirst aes seed), RNG.after aes g (2 * i))) (by rfl) ?_ ?_
  · rintro i _ - hi rfl
    refine ⟨_, ?_, rfl⟩
    dsimp only
    unfold word128
    rw [hw _ (by omega), Out.ok_bind]
    dsimp only
    rw [hw _ (by omega), Out.ok_bind, Out.ok_bind]
    dsimp only
    rw [show 2 * (i + 1) = 2 * i + 1 + 1 by omega]
    congr 2
    simp [tab, List.range_succ, element]
  · rintro s rfl
    simp

theorem sampleCol_entries {lib : Lib} {aes : Cipher} {rows : Int} {elems : List T} {col : Nat} {g : RNG.Gen} {r : List (Nat × T) × RNG.Gen}
    (h : sampleCol lib aes rows elems col g = .ok r) : ∀ e ∈ r.1, ∃ i < 10, elems[10 * col + i]? = some e.2 := by
  unfold sampleCol at h
  have := loop_post (fun i (s : List (Nat × T) × RNG.Gen) => ∀ e ∈ s.1, ∃ j < i, elems[10 * col + j]? = some e.2) ?_ _ _ _ _
    (by simp) h
  · simpa [nonzeros] using this
  rintro i ⟨s, g⟩ r hs e
  obtain ⟨⟨row, g'⟩, -, e⟩ := Out.bind_eq_ok.1 e
  dsimp only at e
  split at e
  · cases e
  obtain ⟨x, hx, e⟩ := Out.bind_eq_ok.1 e
  cases e
  have hx : elems[10 * col + i]? = some x := by
    rw [Nat.mul_comm]
    unfold rd at hx
    split at hx
    · next h => cases hx; exact h
    · cases hx
  dsimp only at hs ⊢
  have old : ∀ e ∈ s, ∃ j < i + 1, elems[10 * col + j]? = some e.2 := fun e he => by
    obtain ⟨j, hj, h⟩ := hs e he
    exact ⟨j, by omega, h⟩
  unfold setEntry
  split
  · intro e he
    obtain ⟨e', h4, rfl⟩ := List.mem_map.1 he
    split
    · exact ⟨i, by omega, hx⟩
    · exact old _ h4
  · intro e he
    rcases List.mem_append.1 he with he | he
    · exact old e he
    · rw [List.mem_singleton] at he
      subst he
      exact ⟨i, by omega, hx⟩

/-- The entries of column `c` are among the elements `10 c`, …, `10 c + 9`. -/
theorem sampleCode_entries {lib : Lib} {aes : Cipher} {rows : Int} {cols : Nat} {junk : RNG.Gen} {seed : List (BitVec 8)} {g : RNG.Gen} {m : Sparse T}
    (hs : 32 ≤ seed.length) (hc : cols ≤ 2 ^ 36) (hg : RNG.create junk seed (nonzeros * cols) = .ok g) (h : sampleCode lib aes rows cols g = .ok m) :
    ∀ c col, m.cols[c]? = some col → ∀ e ∈ col, ∃ i < 10, e.2 = element T lib.hiFirst aes seed (10 * c + i) := by
  obtain ⟨-, h2⟩ := sampleCode_dims h
  rcases Nat.eq_zero_or_pos cols with h0 | h0
  · intro c col hcol
    have := (List.getElem?_eq_some_iff.1 hcol).1
    omega
  unfold sampleCode at h
  have hz : nonzeros = 10 := rfl
  rw [sampleElems_eq lib aes junk seed hs (nonzeros * cols) (by rw [hz]; omega) (by rw [hz]; omega) (by rw [hz]; omega) (by push_cast; exact hg), Out.ok_bind] at h
  dsimp only at h
  split at h
  · cases h
  obtain ⟨⟨cs, g2⟩, h3, h⟩ := Out.bind_eq_ok.1 h
  cases h
  have := loop_post (fun k (s : List (List (Nat × T)) × RNG.Gen) => s.1.length = k ∧ ∀ c col, s.1[c]? = some col → ∀ e ∈ col,
    ∃ i < 10, (tab (nonzeros * cols) (element T lib.hiFirst aes seed))[10 * c + i]? = some e.2) ?_ cols 0 ([], RNG.after aes g (2 * (nonzeros * cols))) (cs, g2)
    ⟨rfl, by simp⟩ h3
  · intro c col hcol e he
    obtain ⟨i, hi, h4⟩ := this.2 c col hcol e he
    refine ⟨i, hi, ?_⟩
    unfold tab at h4
    rw [List.getElem?_map] at h4
    cases h5 : (List.range (nonzeros * cols))[10 * c + i]? with
    | none => rw [h5] at h4; cases h4
    | some k =>
      rw [h5] at h4
      obtain ⟨h6, h7⟩ := List.getElem?_eq_some_iff.1 h5
      simp only [List.getElem_range] at h7
      subst h7
      exact (Option.some.inj h4).symm
  rintro i ⟨s, g⟩ r ⟨hl, hs⟩ e
  obtain ⟨⟨c, g'⟩, h4, e⟩ := Out.bind_eq_ok.1 e
  cases e
  dsimp only at hl hs h4 ⊢
  refine ⟨by simp [hl], ?_⟩
  intro k col hk
  rw [List.getElem?_append] at hk
  split at hk
  · exact hs k col hk
  · rw [List.getElem?_singleton] at hk
    split at hk
    · next hk' =>
      cases hk
      have : k = i := by omega
      subst this
      exact sampleCol_entries h4
    · cases hk

/-- C38: the values. Whatever the peer does, there is a seed of 32 bytes (or more, if the peer sends more), the one that was
    sent or received, such that every entry of the generator of an OK `PrecomputeCommon` is one of
    the ten elements that the stream of this seed provides for its column. -/
theorem C38_entries {E : Env T} {o : Int} {s s' : VState T} (ho : o ≤ 2 ^ 36) (h : Returns (precomputeCommon E o s) (.ok (), s')) :
    ∃ seed : List (BitVec 8), 32 ≤ seed.length ∧ (E.lower = true → seed = (List.range 32).map (E.rand s.pos).byte) ∧
      ∀ c col, s'.code.cols[c]? = some col → ∀ e ∈ col, ∃ i < 10, e.2 = element T E.lib.hiFirst E.aes seed (10 * c + i) := by
  rcases common_cases E o s with ⟨st, -, ho', e⟩ | ⟨x, t, e, hx⟩
  swap
  · rw [e] at h
    cases h
    exact absurd rfl (hx _)
  rw [e] at h
  have key : ∀ seed p, Returns (fromSeed E o seed { s with mpfss := st, code := ⟨s.voleSize, List.replicate o.toNat []⟩, pos := p }) (.ok (), s') →
      32 ≤ seed.length ∧
      ∀ c col, s'.code.cols[c]? = some col → ∀ e ∈ col, ∃ i < 10, e.2 = element T E.lib.hiFirst E.aes seed (10 * c + i) := by
    intro seed p hr
    obtain ⟨x, t, e1, h1, -⟩ := fromSeed_local E o seed { s with mpfss := st, code := ⟨s.voleSize, List.replicate o.toNat []⟩, pos := p }
    rw [e1] at hr
    cases hr
    obtain ⟨g, h3, -, h2⟩ := h1 rfl
    have hl : 32 ≤ seed.length := by
      by_contra hn
      unfold RNG.create RNG.seed RNG.stateSize at h3
      simp only [show seed.length < 32 by omega, if_true] at h3
      cases h3
    exact ⟨hl, sampleCode_entries hl (by omega) (by rw [show ((o.toNat : Nat) : Int) = o by omega]; exact h3) h2⟩
  cases hl : E.lower with
  | true =>
    rw [exchange_send E hl] at h
    cases h
    rename_i h
    exact ⟨_, (key _ _ h).1, fun _ => rfl, (key _ _ h).2⟩
  | false =>
    rw [exchange_recv E hl] at h
    cases h with | recv _ _ m _ h =>
    cases m with
    | bytes b => exact ⟨b, (key b _ h).1, by simp, (key b _ h).2⟩
    | _ => cases h

/-! ### Two compilers -/

/-- A "library" whose random numbers are all minimal. -/
def minLib (hiFirst : Bool) : Lib := ⟨hiFirst, fun _ g lo _ => .ok (lo, g)⟩

theorem minLib_col (b : Bool) (aes : Cipher) (rows : Int) (hr : 1 ≤ rows) (elems : List T) (col : Nat) (x : T) (he : 10 * col + 10 ≤ elems.length)
    (hx : elems[10 * col + 9]? = some x) (g : RNG.Gen) : sampleCol (minLib b) aes rows elems col g = .ok ([(0, x)], g) := by
  unfold sampleCol
  refine loop_eq (fun i s => s.2 = g ∧ if i = 0 then s.1 = [] else ∃ y, elems[10 * col + (i - 1)]? = some y ∧ s.1 = [(0, y)]) (by simp) ?_ ?_
  · rintro i ⟨l, g'⟩ - hi ⟨rfl, h⟩
    have hi : i < 10 := by simpa [nonzeros] using hi
    obtain ⟨y, hy⟩ : ∃ y, elems[10 * col + i]? = some y := ⟨_, List.getElem?_eq_getElem (by omega)⟩
    have hy' : rd elems (col * nonzeros + i) = .ok y := by
      unfold rd nonzeros
      rw [Nat.mul_comm, hy]
    refine ⟨([(0, y)], g'), ?_, rfl, ?_⟩
    · show (if (0 : Int) < 0 ∨ (0 : Int) ≥ rows then _ else _) = _
      rw [if_neg (by omega), hy', Out.ok_bind]
      dsimp only at h
      split at h
      · subst h; rfl
      · obtain ⟨z, -, rfl⟩ := h
        rfl
    · rw [if_neg (by omega)]
      exact ⟨y, hy, rfl⟩
  · rintro ⟨l, g'⟩ ⟨rfl, h⟩
    rw [if_neg (by simp [nonzeros])] at h
    obtain ⟨y, hy, rfl⟩ := h
    simp only [nonzeros, Nat.zero_add, Nat.add_one_sub_one] at hy
    rw [hx] at hy
    cases hy
    rfl

theorem minLib_code (b : Bool) (aes : Cipher) (rows : Int) (hr : 1 ≤ rows) (cols : Nat) (h0 : 0 < cols) (hc : cols ≤ 2 ^ 36) (junk : RNG.Gen)
    (seed : List (BitVec 8)) (hs : 32 ≤ seed.length) {g : RNG.Gen} (hg : RNG.create junk seed (nonzeros * cols) = .ok g) :
    sampleCode (minLib b) aes rows cols g = .ok ⟨rows, tab cols (fun c => [(0, element T b aes seed (10 * c + 9))])⟩ := by
  have hz : nonzeros = 10 := rfl
  unfold sampleCode
  rw [sampleElems_eq (minLib b) aes junk seed hs (nonzeros * cols) (by rw [hz]; omega) (by rw [hz]; omega) (by rw [hz]; omega) (by push_cast; exact hg),
    Out.ok_bind]
  dsimp only
  rw [if_neg (by omega)]
  rw [loop_eq (r := (tab cols (fun c => [(0, element T b aes seed (10 * c + 9))]), RNG.after aes g (2 * (nonzeros * cols))))
    (fun i s => s = (tab i (fun c => [(0, element T b aes seed (10 * c + 9))]), RNG.after aes g (2 * (nonzeros * cols)))) rfl ?_ ?_]
  · rfl
  · rintro i _ - hi rfl
    refine ⟨_, ?_, rfl⟩
    dsimp only
    rw [minLib_col b aes rows hr _ i (element T b aes seed (10 * i + 9)) (by simp [hz]; omega) (by
      unfold tab
      rw [List.getElem?_map, List.getElem?_range (by rw [hz]; omega)]
      rfl), Out.ok_bind]
    simp [tab, List.range_succ]
  · rintro s rfl
    simp

def hiA : Env (BitVec 64) := { exA with lib := minLib true }
def loB : Env (BitVec 64) := { exB with lib := minLib false }

/-- The state of a new object after the first lines of a precomputation. -/
def started : VState (BitVec 64) := { created toyHasher 0 with noise := 98, voleSize := 1589, mpfssSize := 2000 }

theorem started_eq : startPrecompute (created toyHasher 0) = .ret (.ok 3589, started) := by
  unfold startPrecompute
  rw [VM.modify_bind]
  rw [show rd noiseSizes 0 = .ok 98 from rfl, show rd seedSizes 0 = .ok 1589 from rfl, VM.lift_ok_bind, VM.lift_ok_bind, VM.modify_bind, VM.get_bind]
  dsimp only
  rw [show (98 : Int) = ((98 : Nat) : Int) from rfl, show (created toyHasher (0 : BitVec 64)).mpfss.hasher = toyHasher from rfl,
    toy_buckets (by omega), VM.lift_ok_bind, VM.modify_bind]
  rfl

/-- C38 fails if the two parties were compiled by different compilers: the order in which the
    arguments of `absl::MakeUint128(rng(), rng())` are evaluated is unspecified. With everything else
    equal, both calls return OK and the generators differ. -/
theorem C38_compilers_false : startPrecompute (created toyHasher 0) = .ret (.ok 3589, started) ∧
    hiA.lib.unif = loB.lib.unif ∧ ∃ s r va vb,
      Computes (precomputeCommon hiA 5482 started) (precomputeCommon loB 5482 started) (.ok (), s) (.ok (), r) va vb ∧ s.code ≠ r.code := by
  refine ⟨started_eq, rfl, ?_⟩
  have W : Together toyHasher exA exB := ex_together
  have S : Smooth toyHasher exA := toy_smooth _ _ _ (by omega)
  have hup : ∃ st, MPFSS.updateBuckets exA.thr started.mpfss (5482 : Nat) (98 : Nat) = (.ok (), st) := by
    rcases updateBuckets_cases W (t := 98) (m := 5482) (by decide) (by omega) (by omega) W.threadsA (Coherent.new toyHasher) with ⟨st, e, -⟩ | ⟨hb, -⟩
    · exact ⟨st, e⟩
    · rw [S.bits 98 (by decide) 5482 (by omega)] at hb
      cases hb
  obtain ⟨st, hst⟩ := hup
  have e1 := common_eq hiA (o := 5482) (by omega) (s := started) hst
  have e2 := common_eq loB (o := 5482) (by omega) (s := started) hst
  rw [exchange_send hiA rfl] at e1
  rw [exchange_recv loB rfl] at e2
  have hlen : 32 ≤ ((List.range 32).map (hiA.rand 0).byte).length := by simp
  obtain ⟨g, hg⟩ : ∃ g, RNG.create (hiA.rand 1).junk ((List.range 32).map (hiA.rand 0).byte) (nonzeros * (5482 : Int)) = .ok g := by
    obtain ⟨g, h, -⟩ := RNG.create_at toyAes (hiA.rand 1).junk ((List.range 32).map (hiA.rand 0).byte) (nonzeros * (5482 : Int)) hlen
    exact ⟨g, h⟩
  have hcan : Scalar.canHash (BitVec 64) (ROT.secPerLeaf hiA.sec (nonzeros * (5482 : Nat))) 128 = true := S.elements 5482 (by omega)
  obtain ⟨x, t, f1, -, k1⟩ := fromSeed_local hiA 5482 ((List.range 32).map (hiA.rand 0).byte)
    { started with mpfss := st, code := ⟨started.voleSize, List.replicate (5482 : Int).toNat []⟩, pos := 1 }
  obtain ⟨y, t', f2, -, k2⟩ := fromSeed_local loB 5482 ((List.range 32).map (hiA.rand 0).byte)
    { started with mpfss := st, code := ⟨started.voleSize, List.replicate (5482 : Int).toNat []⟩, pos := 1 }
  obtain ⟨rfl, hc1⟩ := k1 g _ hg hcan (minLib_code true toyAes 1589 (by omega) 5482 (by omega) (by omega) _ _ hlen hg)
  obtain ⟨rfl, hc2⟩ := k2 g _ hg hcan (minLib_code false toyAes 1589 (by omega) 5482 (by omega) (by omega) _ _ hlen hg)
  have J := Joint.sendRecv (ch := hiA.c.main) (m := Msg.bytes ((List.range 32).map (hiA.rand 0).byte)) (k := .ret (Out.ok (), t))
    (k' := fun m => (VM.lift (PM.unBytes m) >>= fromSeed loB 5482)
      { started with mpfss := st, code := ⟨started.voleSize, List.replicate (5482 : Int).toNat []⟩, pos := 1 })
    (a := (Out.ok (), t)) (b := (Out.ok (), t')) (va := []) (vb := []) (by
      rw [show PM.unBytes (Msg.bytes ((List.range 32).map (hiA.rand 0).byte) : Msg (BitVec 64)) = .ok ((List.range 32).map (hiA.rand 0).byte) from rfl,
        VM.lift_ok_bind, f2]
      exact Joint.ret _ _)
  refine ⟨t, t', ?va, ?vb, ?c, ?d⟩
  case c =>
    rw [e1, e2]
    refine Joint.computes ?_
    rw [← f1] at J
    exact J
  case d =>
    rw [hc1, hc2]
    intro h
    have h := (Sparse.mk.inj h).2
    have h : element (BitVec 64) true toyAes ((List.range 32).map (hiA.rand 0).byte) 9 = element (BitVec 64) false toyAes ((List.range 32).map (hiA.rand 0).byte) 9 := by
      have := congrArg (fun l => l[0]?) h
      simpa [tab] using this
    exact absurd h (by decide +kernel)

/-- With the same compiler both calls succeed and give the same generator with 5482 columns; all the
    theorems above apply. -/
example : ∃ s r va vb, Computes (precomputeCommon exA 5482 started) (precomputeCommon exB 5482 started) (.ok (), s) (.ok (), r) va vb ∧
    s.code = r.code ∧ Promised 1589 5482 s.code ∧ s.code.cols.length = 5482 := by
  have h := common_pair (P := fun _ => False) (M := 10616092) (N := 10616092) (fun o h1 h2 => exE o h1 (fun S => h2 ⟨S.1.to, S.2.to⟩)) ex_together
    (t := 98) (o := 5482) (s := started) (r := started) (by decide) (by omega) (by omega) (by omega)
    (Coherent.new toyHasher) (Coherent.new toyHasher) rfl rfl (vs := 1589) (by omega) rfl rfl
  rw [show ((5482 : Nat) : Int) = 5482 from rfl] at h
  obtain ⟨⟨⟩, s, ⟨⟩, r, va, vb, c, -⟩ := h.false
  have h1 := C38_shape c.returns
  refine ⟨s, r, va, vb, c, C38_same (A := exA) (B := exB) rfl rfl rfl rfl rfl c, h1, ?_⟩
  have := h1.2.1
  omega

end DVO.VOLE
