/-
C70: the experiments and the benchmarks.
-/
import Verif.Model.Clients
import Verif.Props.Tests2

set_option linter.unusedSectionVars false

namespace DVO.Clients
open Net Create VOLE Cuckoo GGM MPFSS Tests

/-! ### The loops -/

section
variable {M α β : Type}

/-- `xs` and `ys` are equally long, and elements at the same position `k` are related by `R (i + k)`. -/
def Matched (R : Nat → α → β → Prop) (i : Nat) (xs : List α) (ys : List β) : Prop :=
  xs.length = ys.length ∧ ∀ (k : Nat) x y, xs[k]? = some x → ys[k]? = some y → R (i + k) x y

theorem Matched.nil (R : Nat → α → β → Prop) (i : Nat) : Matched R i [] [] := ⟨rfl, by simp⟩

theorem Matched.cons {R : Nat → α → β → Prop} {i : Nat} {x : α} {y : β} {xs : List α} {ys : List β} (h : R i x y) (H : Matched R (i + 1) xs ys) :
    Matched R i (x :: xs) (y :: ys) := by
  refine ⟨by simp [H.1], ?_⟩
  intro k a b ha hb
  cases k with
  | zero =>
    simp only [List.getElem?_cons_zero, Option.some.injEq] at ha hb
    subst ha; subst hb; exact h
  | succ k =>
    simp only [List.getElem?_cons_succ] at ha hb
    have := H.2 k a b ha hb
    rwa [show i + 1 + k = i + (k + 1) by omega] at this

end

section
variable {T : Type} [Scalar T] {α β : Type}

theorem flag (b : Bool) : unFlag (.bytes [if b then 1 else 0] : Msg T) = .ok b := by cases b <;> rfl

theorem tell_hear (c : Chans) (b : Bool) : ∃ va vb, Joint (tell c b : PM (Msg T) Unit) (hear c) (.ok ()) (.ok b) va vb := by
  have : Joint (Proc.ret (.ok ()) : PM (Msg T) Unit) (PM.lift (unFlag (.bytes [if b then 1 else 0] : Msg T)) : PM (Msg T) Bool) (.ok ()) (.ok b) [] [] := by
    rw [flag]; exact Joint.ret _ _
  exact ⟨_, _, Joint.sendRecv (k' := fun m => PM.lift (unFlag m)) this⟩

/-- The two loops with plain functions. -/
theorem loops (c : Chans) {step : Nat → α → PM (Msg T) α} {step' : Nat → β → PM (Msg T) β} (Inv : α → β → Prop) (R : Nat → α → β → Prop)
    (h : ∀ i j x y, Inv x y → ∃ x' y' va vb, Joint (step i x) (step' j y) (.ok x') (.ok y') va vb ∧ Inv x' y' ∧ R i x' y') :
    ∀ (n i j fuel : Nat) (x : α) (y : β), n ≤ fuel → Inv x y → ∃ xs ys va vb,
      Joint (drive (tell c) step n i x : PM (Msg T) (List α))
        (hear c >>= fun b => if b then (serve (hear c) (PM.lift .diverge) step' fuel j y >>= fun rest => pure (y :: rest)) else pure [y] : PM (Msg T) (List β))
        (.ok xs) (.ok (y :: ys)) va vb ∧ xs.length = n ∧ Matched R i xs ys := by
  intro n
  induction n with
  | zero =>
    intro i j fuel x y _ _
    obtain ⟨va, vb, hj⟩ := bindOk' (tell_hear (T := T) c false) (f := fun _ => (pure [] : PM (Msg T) (List α)))
      (g := fun b => if b then (serve (hear c) (PM.lift .diverge) step' fuel j y >>= fun rest => pure (y :: rest)) else pure [y]) ⟨_, _, Joint.ret _ _⟩
    exact ⟨[], [], va, vb, hj, rfl, Matched.nil R i⟩
  | succ n ih =>
    intro i j fuel x y hf hxy
    obtain ⟨fuel, rfl⟩ : ∃ f, fuel = f + 1 := ⟨fuel - 1, by omega⟩
    obtain ⟨x', y', va, vb, h1, h2, h3⟩ := h i j x y hxy
    obtain ⟨xs, ys, va', vb', h4, h5, h6⟩ := ih (i + 1) (j + 1) fuel x' y' (by omega) h2
    refine ⟨x' :: xs, y' :: ys, ?_⟩
    have hj : ∃ va vb, Joint (step i x >>= fun x => drive (tell c) step n (i + 1) x >>= fun rest => pure (x :: rest) : PM (Msg T) _)
        (serve (hear c) (PM.lift .diverge) step' (fuel + 1) j y >>= fun rest => pure (y :: rest) : PM (Msg T) _) (.ok (x' :: xs)) (.ok (y :: y' :: ys)) va vb := by
      unfold serve
      rw [bind_assoc]
      refine bindOk' ⟨va, vb, h1⟩ ?_
      exact bindOk' ⟨va', vb', h4⟩ ⟨_, _, Joint.ret _ _⟩
    obtain ⟨va, vb, hj⟩ := bindOk' (tell_hear (T := T) c true)
      (f := fun _ => (step i x >>= fun x => drive (tell c) step n (i + 1) x >>= fun rest => pure (x :: rest) : PM (Msg T) _))
      (g := fun b => if b then (serve (hear c) (PM.lift .diverge) step' (fuel + 1) j y >>= fun rest => pure (y :: rest)) else pure [y]) hj
    exact ⟨va, vb, hj, by simp [h5], h6.cons h3⟩

theorem serve_succ {m : Type → Type} [Monad m] {α : Type} (hear : m Bool) (lost : m (List α)) (step : Nat → α → m α) {fuel f : Nat} (hf : fuel = f + 1) (i : Nat) (prev : α) :
    serve hear lost step fuel i prev = (step i prev >>= fun x => hear >>= fun b => if b then (serve hear lost step f (i + 1) x >>= fun rest => pure (x :: rest)) else pure [x]) := by
  subst hf; rfl

/-- The two loops with member functions. -/
theorem loopsV {X : Out Unit → Prop} {c c' : Chans} (hc : c' = c) {step : Nat → α → VM T α} {step' : Nat → β → VM T β} (Inv : VState T → VState T → Prop) (R : Nat → α → β → Prop)
    (h : ∀ i j x y s r, Inv s r → Pair X (step i x s) (step' j y r) (fun x' s' y' r' => Inv s' r' ∧ R i x' y')) :
    ∀ (n i j fuel : Nat) (x : α) (y : β) (s r : VState T), n ≤ fuel → Inv s r →
      Pair X (drive (fun b => VM.run (tell c b)) step n i x s)
        ((VM.run (hear c') >>= fun b => if b then (serve (VM.run (hear c')) (VM.lift .diverge) step' fuel j y >>= fun rest => pure (y :: rest)) else pure [y] : VM T (List β)) r)
        (fun xs s' l r' => Inv s' r' ∧ xs.length = n ∧ ∃ ys, l = y :: ys ∧ Matched R i xs ys) := by
  subst hc
  intro n
  induction n with
  | zero =>
    intro i j fuel x y s r _ hsr
    obtain ⟨va, vb, hj⟩ := tell_hear (T := T) c' false
    refine Pair.bind (Pair.run hj) ?_
    rintro - s' b r' ⟨-, rfl, rfl, rfl⟩
    exact Pair.ret ⟨hsr, rfl, [], rfl, Matched.nil R i⟩
  | succ n ih =>
    intro i j fuel x y s r hf hsr
    obtain ⟨fuel, rfl⟩ : ∃ f, fuel = f + 1 := ⟨fuel - 1, by omega⟩
    obtain ⟨va, vb, hj⟩ := tell_hear (T := T) c' true
    refine Pair.bind (Pair.run hj) ?_
    rintro - s' b r' ⟨-, rfl, rfl, rfl⟩
    rw [if_pos rfl]
    unfold serve
    rw [bind_assoc]
    refine Pair.bind (h i j x y _ _ hsr) ?_
    rintro x' s' y' r' ⟨h1, h2⟩
    refine Pair.bind (ih (i + 1) (j + 1) fuel x' y' s' r' (by omega) h1) ?_
    rintro xs s2 l r2 ⟨h3, h4, ys, rfl, h5⟩
    exact Pair.ret ⟨h3, by simp [h4], y' :: ys, rfl, h5.cons h2⟩

end

/-! ### Element types -/

/-- C70: `ZZ_p` is suitable for the vector OLE exactly if `zz_p` with the low 128 bits of the modulus would be. -/
theorem C70_ZZ_p (p : Nat) (sec : Sec) : Suitable (ZZp p) sec ↔ Suitable (Zzp (p % 2 ^ 128)) sec := ⟨fun h => ⟨h.1, h.2⟩, fun h => ⟨h.1, h.2⟩⟩

/-- C70: the moduli of the experiments and benchmarks are suitable for the vector OLE with 40 bits. -/
theorem C70_moduli : (∀ p ∈ [251, 65521, 2 ^ 32 - 5, 2 ^ 60 - 93], Suitable (Zzp p) defaultSec) ∧
    ∀ p ∈ [251, 65521, 2 ^ 32 - 5, 2 ^ 60 - 93, 2 ^ 64 - 59, 2 ^ 128 - 159], Suitable (ZZp p) defaultSec := by
  constructor
  · intro p hp
    simp only [List.mem_cons, List.not_mem_nil, or_false] at hp
    rcases hp with rfl | rfl | rfl | rfl <;> exact (C69_zz_p (by norm_num) (by norm_num)).2 (by norm_num)
  · intro p hp
    simp only [List.mem_cons, List.not_mem_nil, or_false] at hp
    rw [C70_ZZ_p]
    rcases hp with rfl | rfl | rfl | rfl | rfl | rfl <;> exact (C69_zz_p (by norm_num) (by norm_num)).2 (by norm_num)

section
variable {T : Type} [Scalar T]

/-- C70: elements of up to 8 bytes can be multiplied in all sizes of the experiments (for elements of 16 bytes and 2^24 elements see
    C56). -/
theorem C70_lengths (hT : LawfulScalar T) (h8 : Scalar.sizeOf T ≤ 8) {n : Nat} (hn : n ≤ 2 ^ 24) : Gilboa.GoodLength T n := by
  have h1 := LawfulScalar.size_pos (T := T)
  have h3 : Gilboa.stride T ≤ 16 := Nat.div_le_self _ _
  have h3' : 2 ≤ Gilboa.stride T := (Nat.le_div_iff_mul_le (by omega)).2 (by omega)
  have h4 : (n + Gilboa.stride T - 1) / Gilboa.stride T ≤ 2 ^ 23 + 8 := by
    refine (Nat.div_le_div_left h3' (by omega)).trans ?_
    omega
  refine ⟨by omega, ?_⟩
  have h5 : Gilboa.bitWidth T ≤ 64 := by unfold Gilboa.bitWidth; omega
  calc _ ≤ 64 * (2 ^ 23 + 8) := Nat.mul_le_mul h5 h4
    _ < 2 ^ 31 := by norm_num

/-- C70: the sizes of the experiments. -/
theorem C70_sizes : sizes = [2 ^ 10, 2 ^ 12, 2 ^ 14, 2 ^ 16, 2 ^ 18, 2 ^ 20, 2 ^ 22, 2 ^ 24] := by decide

/-! ### Experiments -/

/-- The SPFSS without the creation of the objects. -/
theorem span (hT : Tested T) (aes : Cipher) {fl : Nat → Nat → Nat} (H : FaithfulDepth fl) (c : Chans) (key seed : Nat → Block) {n : Nat} (hn : n ≤ 2 ^ 24)
    {index : Int} (h0 : 0 ≤ index) (hi : n = 0 ∨ index < n) (x y : T) {o o' : List T} (ho : o.length = n) (ho' : o'.length = n) :
    ∃ V W va vb, Joint (SPFSS.runValueProviderSpan aes fl c defaultSec key seed x o : PM (Msg T) _) (SPFSS.runIndexProviderSpan aes fl c y index o') (.ok V) (.ok W) va vb ∧
      V.length = n ∧ W.length = n ∧ ∀ k : Nat, k < n → ∃ v w, V[k]? = some v ∧ W[k]? = some w ∧ v + w = if (k : Int) = index then x + y else 0 := by
  have := hT.lawful
  obtain ⟨S, R, va, vb, hc, l1, l2, h1⟩ := SPFSS.C10_point_function (T := T) aes fl c (some (2 ^ 40)) key seed [x] [y] [o] [o'] [index] (match_one ho ho' h0 hi)
    rfl rfl (by intro x hx; simp only [List.mem_singleton] at hx; subst hx; exact C68_good H (by omega)) (by
      rw [show List.map List.length [o] = [n] by simp [ho]]; exact hash_one hT hn)
  obtain ⟨s, rfl, hs⟩ := single (n := n) (l1.trans (by simp [ho]))
  obtain ⟨r, rfl, hr⟩ := single (n := n) (l2.trans (by simp [ho']))
  obtain ⟨va', vb', hj⟩ : ∃ va vb, Joint (SPFSS.runValueProviderSpan aes fl c defaultSec key seed x o : PM (Msg T) _) (SPFSS.runIndexProviderSpan aes fl c y index o') (.ok s) (.ok r) va vb := by
    unfold SPFSS.runValueProviderSpan SPFSS.runIndexProviderSpan
    exact bindOk' ⟨_, _, hc.joint⟩ ⟨_, _, Joint.ret _ _⟩
  refine ⟨s, r, va', vb', hj, hs, hr, ?_⟩
  intro k hk
  obtain ⟨v, w, e1, e2, e3⟩ := h1 0 k o index x y rfl rfl rfl rfl (by omega)
  exact ⟨v, w, by simpa [ROT.elem] using e1, by simpa [ROT.elem] using e2, e3⟩

theorem withVOLE_pair {X : Out Unit → Prop} {α β : Type} {P Q : Party} {A B : Env T} (W : World P Q A B) (bits : Sec → Nat → Nat → Nat → Bool)
    (optimal : Sec → Nat → Nat → Int) (seed seed' : Block) (junk junk' : T) {f : Env T → VM T α} {g : Env T → VM T β} {Post : α → VState T → β → VState T → Prop}
    (h : Pair X (f { A with sec := defaultSec.map (· * 3) } (created (commonHasher bits optimal P seed seed' defaultSec A.aes) junk))
      (g { B with sec := defaultSec.map (· * 3) } (created (commonHasher bits optimal P seed seed' defaultSec A.aes) junk')) Post) :
    Pair X (withVOLE bits optimal P seed A junk f) (withVOLE bits optimal Q seed' B junk' g)
      (fun a s b r => ∃ s' r', s = some s' ∧ r = some r' ∧ Post a s' b r') := by
  obtain ⟨va, vb, j⟩ := vole_joint (T := T) A.aes bits optimal W.peers seed seed' A.c (sec := defaultSec) (by rintro _ ⟨⟩; norm_num)
  have e : (voleCreate B.aes bits optimal Q seed' (some B.c) defaultSec : PM (Msg T) _) = voleCreate A.aes bits optimal Q seed' (some A.c) defaultSec := by
    rw [W.aes, W.chans]
  unfold withVOLE
  rw [e]
  refine Pair.after j ?_
  exact h.mapState some some (fun a s b t hp => ⟨s, t, rfl, rfl, hp⟩)

/-- What the theorems about the vector OLE assume: two parties with a connection, formulas evaluated faithfully, a suitable
    element type, and luck. -/
structure Ready (bits : Sec → Nat → Nat → Nat → Bool) (optimal : Sec → Nat → Nat → Int) (P Q : Party) (seed seed' : Block) (A B : Env T) : Prop where
  world : World P Q A B
  faithfully : Faithfully bits optimal
  suitable : Suitable T defaultSec
  luckyA : Lucky (commonHasher bits optimal P seed seed' defaultSec A.aes) A
  luckyB : Lucky (commonHasher bits optimal P seed seed' defaultSec A.aes) B

variable [LawfulScalar T] {bits : Sec → Nat → Nat → Nat → Bool} {optimal : Sec → Nat → Nat → Int} {P Q : Party} {seed seed' : Block} {A B : Env T}

theorem Ready.smooth (R : Ready bits optimal P Q seed seed' A B) :
    Smooth (commonHasher bits optimal P seed seed' defaultSec A.aes) { A with sec := defaultSec.map (· * 3) } ∧
    Smooth (commonHasher bits optimal P seed seed' defaultSec A.aes) { B with sec := defaultSec.map (· * 3) } :=
  ⟨C68_smooth R.faithfully P seed seed' A.aes A (by norm_num) (by norm_num) R.suitable R.luckyA,
   C68_smooth R.faithfully P seed seed' A.aes B (by norm_num) (by norm_num) R.suitable R.luckyB⟩

theorem Ready.together (R : Ready bits optimal P Q seed seed' A B) :
    Together (commonHasher bits optimal P seed seed' defaultSec A.aes) { A with sec := defaultSec.map (· * 3) } { B with sec := defaultSec.map (· * 3) } :=
  C68_together R.world R.faithfully.buckets seed seed' (by norm_num) (by norm_num) _

theorem Ready.sync (R : Ready bits optimal P Q seed seed' A B) :
    ∃ va vb, Joint (sync P A.c : PM (Msg T) Unit) (sync Q B.c : PM (Msg T) Unit) (.ok ()) (.ok ()) va vb := by
  rw [R.world.chans]; exact sync_joint R.world.peers A.c

/-- One run of the vector OLE without failures. -/
theorem run_sure {h : Hasher} {A B : Env T} (S : Smooth h A ∧ Smooth h B) (W : Together h A B) {df : Option T} {s r : VState T} (H : Hist h False df none s r)
    {n : Nat} (h1 : 1 ≤ n) (hn : n < 2 ^ 62) (hA : n + 2 ≤ A.fuel) (hB : n + 2 ≤ B.fuel) :
    Pair (fun _ => False) (runSender A n s) (runReceiver B n r)
      (fun a s' e r' => ∃ d, (df = none ∨ df = some d) ∧ Hist h False (some d) none s' r' ∧ Corr d a e ∧ a.u.length = n) :=
  run_hist (P := fun _ => False) (fun _ _ hns => hns S) W H (.inr rfl) (by exact_mod_cast hn) (.inl (by exact_mod_cast h1)) (.inr ⟨hA, hB⟩)

theorem precompute_sure {h : Hasher} {A B : Env T} (S : Smooth h A ∧ Smooth h B) (W : Together h A B) {df : Option T} {s r : VState T} (H : Hist h False df none s r)
    {n : Int} (h1 : 1 ≤ n) (hn : n < 2 ^ 62) :
    Pair (fun _ => False) (precomputeSender A n s) (precomputeReceiver' B n r) (fun _ s' _ r' => ∃ d, Hist h False (some d) none s' r') := by
  rw [precomputeReceiver'_apply]
  refine (precompute_hist (P := fun _ => False) (fun _ _ hns => hns S) W (H.pos _) (.inr rfl) hn (.inl h1) _).mono ?_
  rintro - s' - r' ⟨-, h2⟩
  exact ⟨_, h2⟩

theorem hist_new (h : Hasher) (junk junk' : T) : Hist h False none none (created h junk) (created h junk') :=
  Hist.new (Coherent.new h) (Coherent.new h) junk junk' _

/-- C70: the experiment with the vector OLE succeeds and gives a correlation. -/
theorem C70_vole (R : Ready bits optimal P Q seed seed' A B) (hP : P.lower = true) (junk junk' : T) {n : Nat} (h1 : 1 ≤ n) (hn : n < 2 ^ 31)
    (hA : n + 2 ≤ A.fuel) (hB : n + 2 ≤ B.fuel) :
    ∃ x y va vb, Computes (runVOLE bits optimal P seed A junk n) (runVOLE bits optimal Q seed' B junk' n) (.ok (.sender x)) (.ok (.receiver y)) va vb ∧
      x.u.length = n ∧ Correlated y.delta x.u x.v y.w := by
  have hQ : Q.lower = false := by rw [R.world.peers.ids, hP]; rfl
  obtain ⟨vs, ws, hs⟩ := R.sync
  have hrun := run_sure R.smooth R.together (hist_new _ junk junk') h1 (by omega) hA hB
  obtain ⟨a, s, b, r, va, vb, hc, s', r', rfl, rfl, x, y, rfl, rfl, e1, e2⟩ := (withVOLE_pair (X := fun _ => False) R.world bits optimal seed seed' junk junk'
    (f := voleCalls P n) (g := voleCalls Q n) (Post := fun a _ b _ => ∃ x y, a = .sender x ∧ b = .receiver y ∧ x.u.length = n ∧ Correlated y.delta x.u x.v y.w) (by
      unfold voleCalls
      simp only [hP, hQ, if_true, Bool.false_eq_true, if_false]
      refine Pair.bind (Pair.run hs) ?_
      rintro - _ - _ ⟨-, -, rfl, rfl⟩
      refine Pair.bind hrun ?_
      rintro x s y r ⟨d, -, -, h2, h3⟩
      exact Pair.ret ⟨x, y, rfl, rfl, h3, by rw [h2.delta]; exact h2.corr⟩)).false
  obtain ⟨va', vb', hj⟩ : ∃ va vb, Joint (runVOLE bits optimal P seed A junk n) (runVOLE bits optimal Q seed' B junk' n) (.ok (.sender x)) (.ok (.receiver y)) va vb :=
    ⟨_, _, Joint.bind hc.joint (f := fun r : Out (Result T) × Option (VState T) => (.ret r.1 : Proc (Msg T) (Out (Result T))))
      (g := fun r : Out (Result T) × Option (VState T) => (.ret r.1 : Proc (Msg T) (Out (Result T)))) (Joint.ret _ _)⟩
  exact ⟨x, y, va', vb', hj.computes, e1, e2⟩

theorem iota_get (y : T) (n k : Nat) : (iota y n)[k]? = if k < n then some (y + k) else none := by
  induction n generalizing y k with
  | zero => simp [iota]
  | succ n ih =>
    cases k with
    | zero => simp [iota]
    | succ k =>
      unfold iota
      rw [List.getElem?_cons_succ, ih]
      by_cases hk : k < n
      · rw [if_pos hk, if_pos (by omega)]; push_cast; congr 1; ring
      · rw [if_neg hk, if_neg (by omega)]

theorem iota_length (y : T) (n : Nat) : (iota y n).length = n := by
  induction n generalizing y with
  | zero => rfl
  | succ n ih => simp [iota, ih]

theorem default_ok : ∀ f, defaultSec = some f → 1 ≤ f := by rintro _ ⟨⟩; norm_num

/-- C70: the experiment with the Gilboa product succeeds and gives shares of the product. -/
theorem C70_gilboa (hPQ : Peers P Q) (hP : P.lower = true) (c : Chans) (m0 m0' : Nat → Block) (rnd rnd' : Nat → List T) (y x : T) {n : Nat}
    (hn : Gilboa.GoodLength T n) :
    ∃ r0 r1 va vb, Computes (runGilboa P c m0 rnd y x n) (runGilboa Q c m0' rnd' y x n) (.ok (.shares r0)) (.ok (.shares r1)) va vb ∧
      r0.length = n ∧ r1.length = n ∧ ∀ k : Nat, k < n → ∃ a b, r0[k]? = some a ∧ r1[k]? = some b ∧ a + b = x * (y + k) := by
  have hQ : Q.lower = false := by rw [hPQ.ids, hP]; rfl
  obtain ⟨r0, r1, va, vb, hc, l1, l2, h1⟩ := Gilboa.C23_product inferInstance c defaultSec m0 rnd x (iota y n) (List.replicate n 0) (List.replicate n 0)
    (by simp [iota_length]) (by simp [iota_length]) (by rw [iota_length]; exact hn)
  rw [iota_length] at l1 l2
  have hj : ∃ va vb, Joint (runGilboa P c m0 rnd y x n) (runGilboa Q c m0' rnd' y x n) (.ok (.shares r0)) (.ok (.shares r1)) va vb := by
    unfold runGilboa
    refine bindOk' (gilboa_joint (T := T) hPQ c default_ok) ?_
    simp only [hP, hQ, if_true, Bool.false_eq_true, if_false, Int.toNat_natCast]
    rw [if_neg (by omega)]
    refine bindOk' (sync_joint hPQ c) ?_
    refine bindOk' ⟨va, vb, ?_⟩ ⟨_, _, Joint.ret _ _⟩
    unfold Gilboa.runVectorProvider' Gilboa.runValueProvider'
    rw [if_neg (by omega), Int.toNat_natCast, iota_length]
    exact hc.joint
  obtain ⟨va', vb', hj⟩ := hj
  refine ⟨r0, r1, va', vb', hj.computes, l1, l2, ?_⟩
  intro k hk
  exact h1 k (y + k) (by rw [iota_get, if_pos hk])

/-- C70: the experiment with the SPFSS succeeds and gives shares of zeros (both share a zero). -/
theorem C70_spfss (hT : Tested T) (aes : Cipher) {fl : Nat → Nat → Nat} (H : FaithfulDepth fl) (hPQ : Peers P Q) (hP : P.lower = true) (c : Chans)
    (key seed key' seed' : Nat → Block) {n : Nat} (hn : n ≤ 2 ^ 24) :
    ∃ r0 r1 va vb, Computes (runSPFSS aes fl P c key seed n : PM (Msg T) _) (runSPFSS aes fl Q c key' seed' n) (.ok (.shares r0)) (.ok (.shares r1)) va vb ∧
      r0.length = n ∧ r1.length = n ∧ ∀ k : Nat, k < n → ∃ a b, r0[k]? = some a ∧ r1[k]? = some b ∧ a + b = 0 := by
  have hQ : Q.lower = false := by rw [hPQ.ids, hP]; rfl
  obtain ⟨V, W, va, vb, hc, l1, l2, h1⟩ := span hT aes H c key' seed' hn (index := 0) (le_refl _) (by omega) (0 : T) 0 (o := List.replicate n 0) (o' := List.replicate n 0)
    (by simp) (by simp)
  have hj : ∃ va vb, Joint (runSPFSS aes fl P c key seed n : PM (Msg T) _) (runSPFSS aes fl Q c key' seed' n) (.ok (.shares W)) (.ok (.shares V)) va vb := by
    unfold runSPFSS
    rw [spfss_eq P c default_ok, spfss_eq Q c default_ok]
    refine bindOk' (rot_joint (T := T) hPQ c default_ok) ?_
    refine bindOk' (sync_joint hPQ c) ?_
    simp only [hP, hQ, if_true, Bool.false_eq_true, if_false]
    refine bindOk' ⟨vb, va, ?_⟩ ⟨_, _, Joint.ret _ _⟩
    unfold SPFSS.runIndexProvider SPFSS.runValueProvider
    rw [if_neg (by omega), if_neg (by omega), Int.toNat_natCast]
    exact hc.swap
  obtain ⟨va', vb', hj⟩ := hj
  refine ⟨W, V, va', vb', hj.computes, l2, l1, ?_⟩
  intro k hk
  obtain ⟨v, w, e1, e2, e3⟩ := h1 k hk
  exact ⟨w, v, e2, e1, by rw [add_comm, e3]; split <;> simp⟩

/-- C70: all other names are refused, without communication. -/
theorem C70_unknown (bits : Sec → Nat → Nat → Nat → Bool) (optimal : Sec → Nat → Nat → Int) (P : Party) (seed : Block) (E : Env T) (junk y x : T) (name : String) (size : Int) :
    (runExperiment bits optimal P seed E junk y x name size = .ret (.err .invalidArgument "Unknown protocol")) ∨ name ∈ ["VOLE", "Gilboa", "SPFSS"] := by
  unfold runExperiment
  by_cases h1 : name = "VOLE"
  · exact .inr (by simp [h1])
  by_cases h2 : name = "Gilboa"
  · exact .inr (by simp [h2])
  by_cases h3 : name = "SPFSS"
  · exact .inr (by simp [h3])
  rw [if_neg h1, if_neg h2, if_neg h3]
  exact .inl rfl

/-- C70: the other three names select the programs of the theorems above. -/
theorem C70_dispatch (bits : Sec → Nat → Nat → Nat → Bool) (optimal : Sec → Nat → Nat → Int) (P : Party) (seed : Block) (E : Env T) (junk y x : T) (size : Int) :
    runExperiment bits optimal P seed E junk y x "VOLE" size = runVOLE bits optimal P seed E junk size ∧
    runExperiment bits optimal P seed E junk y x "Gilboa" size = runGilboa P E.c (E.rand 0).m0 (E.rand 0).rnd y x size ∧
    runExperiment bits optimal P seed E junk y x "SPFSS" size = runSPFSS E.aes E.fl P E.c (E.rand 0).key (E.rand 0).seed size := ⟨rfl, rfl, rfl⟩

/-! ### Benchmarks -/

/-- C70: `BM_Run` with any positive number of iterations comes to an end without errors, and each iteration gives a correlation of
    the length asked for, all with the same delta. -/
theorem C70_run (R : Ready bits optimal P Q seed seed' A B) (junk junk' : T) {len n : Nat} (h1 : 1 ≤ len) (hl : len < 2 ^ 62)
    (hA : len + 2 ≤ A.fuel) (hB : len + 2 ≤ B.fuel) (hn : 1 ≤ n) (hnB : n ≤ B.fuel) :
    ∃ xs s ys r va vb d, Computes (withVOLE bits optimal P seed A junk (runMain P len n)) (withVOLE bits optimal Q seed' B junk' (runThread Q len))
        (.ok xs, s) (.ok ys, r) va vb ∧ xs.length = n ∧ ys.length = n ∧
      ∀ (i : Nat) x y, xs[i]? = some x → ys[i]? = some y → ∃ a e, x = some a ∧ y = some e ∧ a.u.length = len ∧ e.delta = d ∧ Correlated d a.u a.v e.w := by
  obtain ⟨vs, ws, hs⟩ := R.sync
  have hpre := precompute_sure R.smooth R.together (hist_new _ junk junk') (n := len) (by exact_mod_cast h1) (by exact_mod_cast hl)
  have hstep : ∀ (d : T) (s r : VState T), Hist (commonHasher bits optimal P seed seed' defaultSec A.aes) False (some d) none s r →
      Pair (fun _ => False) ((runSender { A with sec := defaultSec.map (· * 3) } len >>= fun r => pure (some r) : VM T _) s)
        ((runReceiver { B with sec := defaultSec.map (· * 3) } len >>= fun r => pure (some r) : VM T _) r)
        (fun x s' y r' => Hist (commonHasher bits optimal P seed seed' defaultSec A.aes) False (some d) none s' r' ∧
          ∃ a e, x = some a ∧ y = some e ∧ a.u.length = len ∧ e.delta = d ∧ Correlated d a.u a.v e.w) := by
    intro d s r H
    refine Pair.bind (run_sure R.smooth R.together H h1 hl hA hB) ?_
    rintro a s' e r' ⟨d', hd, h2, h3, h4⟩
    obtain rfl : d' = d := by rcases hd with hd | hd <;> cases hd; rfl
    exact Pair.ret ⟨h2, a, e, rfl, rfl, h4, h3.delta, h3.corr⟩
  obtain ⟨n, rfl⟩ : ∃ m, n = m + 1 := ⟨n - 1, by omega⟩
  obtain ⟨f, hf⟩ : ∃ f, B.fuel = f + 1 := ⟨B.fuel - 1, by omega⟩
  have hc : B.c = A.c := R.world.chans
  obtain ⟨xs, s, ys, r, va, vb, hj, s', r', rfl, rfl, d, h2, h3, h4⟩ := (withVOLE_pair (X := fun _ => False) R.world bits optimal seed seed' junk junk'
    (f := runMain P len (n + 1)) (g := runThread Q len) (Post := fun xs _ ys _ => ∃ d, xs.length = n + 1 ∧ ys.length = n + 1 ∧
      ∀ (i : Nat) x y, xs[i]? = some x → ys[i]? = some y → ∃ a e, x = some a ∧ y = some e ∧ a.u.length = len ∧ e.delta = d ∧ Correlated d a.u a.v e.w) (by
      unfold runMain runThread
      refine Pair.bind hpre ?_
      rintro - s - r ⟨d, H⟩
      refine Pair.bind (Pair.run hs) ?_
      rintro - _ - _ ⟨-, -, rfl, rfl⟩
      obtain ⟨v1, w1, ht⟩ := tell_hear (T := T) B.c true
      unfold drive
      refine Pair.bind (Pair.run (p := tell A.c true) (by rw [← hc]; exact ht)) ?_
      rintro - _ - _ ⟨-, -, rfl, rfl⟩
      rw [serve_succ (fuel := ({ B with sec := defaultSec.map (· * 3) } : Env T).fuel) _ _ _ hf]
      refine Pair.bind (hstep d _ _ H) ?_
      rintro x s y r ⟨H, hxy⟩
      have hp := Pair.bind (f := fun rest => (pure (x :: rest) : VM T _)) (g := pure) (Post := fun xs _ ys _ => ∃ d, xs.length = n + 1 ∧ ys.length = n + 1 ∧
          ∀ (i : Nat) x y, xs[i]? = some x → ys[i]? = some y → ∃ a e, x = some a ∧ y = some e ∧ a.u.length = len ∧ e.delta = d ∧ Correlated d a.u a.v e.w)
        (loopsV (X := fun _ => False) hc (step := fun _ _ => runSender { A with sec := defaultSec.map (· * 3) } len >>= fun r => pure (some r))
        (step' := fun _ _ => runReceiver { B with sec := defaultSec.map (· * 3) } len >>= fun r => pure (some r))
        (Inv := fun s r => Hist (commonHasher bits optimal P seed seed' defaultSec A.aes) False (some d) none s r)
        (R := fun _ x y => ∃ a e, x = some a ∧ y = some e ∧ a.u.length = len ∧ e.delta = d ∧ Correlated d a.u a.v e.w)
        (fun _ _ _ _ s r H => hstep d s r H) n 1 1 f x y s r (by omega) H) (by
          rintro xs s' - r' ⟨-, h3, ys, rfl, h4⟩
          have h5 := h4.cons hxy
          exact Pair.ret ⟨d, by simp [h3], by simp [← h4.1, h3], fun i x y hx hy => h5.2 i x y hx hy⟩)
      rw [bind_pure] at hp
      exact hp)).false
  exact ⟨xs, _, ys, _, va, vb, d, hj, h2, h3, h4⟩

/-- C70: each iteration of `BM_Precompute` succeeds on both sides. -/
theorem C70_precompute {seed seed' : Nat → Block} {A B : Nat → Env T} {n : Nat} (R : ∀ i < n, Ready bits optimal P Q (seed i) (seed' i) (A i) (B i)) (junk junk' : Nat → T)
    {len : Nat} (h1 : 1 ≤ len) (hl : len < 2 ^ 62) :
    ∃ va vb, Computes (repeatAll (fun i => precomputeOnce bits optimal P (seed i) (A i) (junk i) (precomputeThread P len)) n)
      (repeatAll (fun i => precomputeOnce bits optimal Q (seed' i) (B i) (junk' i) (precomputeMain Q len)) n) (.ok (List.replicate n ())) (.ok (List.replicate n ())) va vb := by
  suffices h : ∃ va vb, Joint (repeatAll (fun i => precomputeOnce bits optimal P (seed i) (A i) (junk i) (precomputeThread P len)) n)
      (repeatAll (fun i => precomputeOnce bits optimal Q (seed' i) (B i) (junk' i) (precomputeMain Q len)) n) (.ok (List.replicate n ())) (.ok (List.replicate n ())) va vb by
    obtain ⟨va, vb, hj⟩ := h
    exact ⟨va, vb, hj.computes⟩
  induction n with
  | zero => exact ⟨_, _, Joint.ret _ _⟩
  | succ n ih =>
    have Rn := R n (by omega)
    obtain ⟨vs, ws, hs⟩ := Rn.sync
    have hpre := precompute_sure Rn.smooth Rn.together (hist_new _ (junk n) (junk' n)) (n := len) (by exact_mod_cast h1) (by exact_mod_cast hl)
    unfold repeatAll
    refine bindOk' (ih fun i hi => R i (by omega)) ?_
    obtain ⟨u, s, w, r, va, vb, hc, -⟩ := (withVOLE_pair (X := fun _ => False) Rn.world bits optimal (seed n) (seed' n) (junk n) (junk' n)
      (f := precomputeThread P len) (g := precomputeMain Q len) (Post := fun _ _ _ _ => True) (by
        unfold precomputeThread precomputeMain
        refine Pair.bind (Pair.run hs) ?_
        rintro - _ - _ ⟨-, -, rfl, rfl⟩
        exact hpre.mono (fun _ _ _ _ _ => trivial))).false
    refine bindOk' (a := ()) (b := ()) ⟨_, _, Joint.bind hc.joint (f := fun r : Out Unit × Option (VState T) => (.ret r.1 : Proc (Msg T) (Out Unit)))
      (g := fun r : Out Unit × Option (VState T) => (.ret r.1 : Proc (Msg T) (Out Unit))) (Joint.ret _ _)⟩ ?_
    rw [List.replicate_succ']
    exact ⟨_, _, Joint.ret _ _⟩

/-- C70: the benchmark of the SPFSS, with any number of iterations, comes to an end without errors, and the results of each call are
    shares of a point function. -/
theorem C70_spfss_benchmark (hT : Tested T) (aes : Cipher) {fl : Nat → Nat → Nat} (H : FaithfulDepth fl) (hPQ : Peers P Q) (c : Chans) (key seed : Nat → Nat → Block) (y x : T)
    {len n fuel : Nat} (h1 : 1 ≤ len) (hl : len ≤ 2 ^ 24) (hn : n + 1 ≤ fuel) :
    ∃ xs ys va vb, Computes (spfssMain aes fl P c y len n) (spfssThread aes fl Q c key seed x len fuel) (.ok xs) (.ok ys) va vb ∧ xs.length = n + 1 ∧ ys.length = n + 1 ∧
      ∀ (i : Nat) X Y, xs[i]? = some X → ys[i]? = some Y → X.length = len ∧ Y.length = len ∧
        ∀ k : Nat, k < len → ∃ a b, X[k]? = some a ∧ Y[k]? = some b ∧ a + b = if k = (i - 1) % len then y + x else 0 := by
  have hstep : ∀ (i j : Nat) (X Y : List T), X.length = len ∧ Y.length = len → ∃ X' Y' va vb,
      Joint (SPFSS.runIndexProviderSpan aes fl c y (i % len : Nat) X : PM (Msg T) _) (SPFSS.runValueProviderSpan aes fl c defaultSec (key j) (seed j) x Y) (.ok X') (.ok Y') va vb ∧
      (X'.length = len ∧ Y'.length = len) ∧ ∀ k : Nat, k < len → ∃ a b, X'[k]? = some a ∧ Y'[k]? = some b ∧ a + b = if k = i % len then y + x else 0 := by
    rintro i j X Y ⟨hX, hY⟩
    obtain ⟨V, W, va, vb, hc, l1, l2, h2⟩ := span hT aes H c (key j) (seed j) hl (index := (i % len : Nat)) (by omega)
      (.inr (by have := Nat.mod_lt i (show len > 0 by omega); omega)) x y hY hX
    refine ⟨W, V, vb, va, hc.swap, ⟨l2, l1⟩, ?_⟩
    intro k hk
    obtain ⟨v, w, e1, e2, e3⟩ := h2 k hk
    refine ⟨w, v, e2, e1, ?_⟩
    rw [add_comm, e3]
    by_cases hki : k = i % len
    · rw [if_pos hki, if_pos (by omega), add_comm]
    · rw [if_neg hki, if_neg (by omega)]
  obtain ⟨f, rfl⟩ : ∃ f, fuel = f + 1 := ⟨fuel - 1, by omega⟩
  obtain ⟨X, Y, v1, w1, j1, i1, r1⟩ := hstep 0 0 (List.replicate len 0) (List.replicate len 0) (by simp)
  obtain ⟨xs, ys, v2, w2, j2, i2, r2⟩ := loops c (step := fun i prev => do
      let r ← SPFSS.runIndexProviderSpan aes fl c y (i % len : Nat) prev
      if len = 0 then PM.lift (.ub "division by zero") else pure r)
    (step' := fun i prev => SPFSS.runValueProviderSpan aes fl c defaultSec (key i) (seed i) x prev)
    (Inv := fun X Y => X.length = len ∧ Y.length = len)
    (R := fun i X' Y' => (X'.length = len ∧ Y'.length = len) ∧ ∀ k : Nat, k < len → ∃ a b, X'[k]? = some a ∧ Y'[k]? = some b ∧ a + b = if k = i % len then y + x else 0)
    (by
      intro i j X Y hXY
      obtain ⟨X', Y', va, vb, hj, h2, h3⟩ := hstep i j X Y hXY
      obtain ⟨va, vb, hj⟩ : ∃ va vb, Joint (SPFSS.runIndexProviderSpan aes fl c y (i % len : Nat) X >>= fun r => if len = 0 then PM.lift (.ub "division by zero") else pure r : PM (Msg T) _)
          (SPFSS.runValueProviderSpan aes fl c defaultSec (key j) (seed j) x Y >>= pure : PM (Msg T) _) (.ok X') (.ok Y') va vb := by
        refine bindOk' ⟨va, vb, hj⟩ ?_
        rw [if_neg (by omega)]
        exact ⟨_, _, Joint.ret _ _⟩
      rw [bind_pure] at hj
      exact ⟨X', Y', va, vb, hj, h2, h2, h3⟩) n 0 1 f X Y (by omega) i1
  have hj : ∃ va vb, Joint (spfssMain aes fl P c y len n) (spfssThread aes fl Q c key seed x len (f + 1)) (.ok (X :: xs)) (.ok (Y :: ys)) va vb := by
    unfold spfssMain spfssThread
    rw [spfss_eq P c default_ok, spfss_eq Q c default_ok]
    refine bindOk' (rot_joint (T := T) hPQ c default_ok) ?_
    rw [serve_succ _ _ _ rfl]
    refine bindOk' ⟨_, _, by simpa using j1⟩ ?_
    rw [← bind_pure (hear c >>= _)]
    exact bindOk' ⟨_, _, j2⟩ ⟨_, _, Joint.ret _ _⟩
  obtain ⟨va, vb, hj⟩ := hj
  refine ⟨X :: xs, Y :: ys, va, vb, hj.computes, by simp [i2], by simp [← r2.1, i2], ?_⟩
  intro i X' Y' hX hY
  cases i with
  | zero =>
    simp only [List.getElem?_cons_zero, Option.some.injEq] at hX hY
    subst hX; subst hY
    exact ⟨i1.1, i1.2, r1⟩
  | succ i =>
    simp only [List.getElem?_cons_succ] at hX hY
    have := r2.2 i X' Y' hX hY
    rw [zero_add] at this
    exact ⟨this.1.1, this.1.2, this.2⟩

/-- C70: the benchmark of the Gilboa product, with any number of iterations, comes to an end without errors, and the results of each
    call are shares of the product. -/
theorem C70_gilboa_benchmark (hPQ : Peers P Q) (c : Chans) (m0 : Nat → Nat → Block) (rnd : Nat → Nat → List T) (y x : T)
    {len n fuel : Nat} (hl : Gilboa.GoodLength T len) (hn : n + 1 ≤ fuel) :
    ∃ xs ys va vb, Computes (gilboaMain P c m0 rnd y len n) (gilboaThread Q c x len fuel) (.ok xs) (.ok ys) va vb ∧ xs.length = n + 1 ∧ ys.length = n + 1 ∧
      ∀ (i : Nat) X Y, xs[i]? = some X → ys[i]? = some Y → X.length = len ∧ Y.length = len ∧ ∀ k : Nat, k < len → ∃ a b, X[k]? = some a ∧ Y[k]? = some b ∧ a + b = x * y := by
  have hstep : ∀ j, ∃ X' Y' va vb,
      Joint (Gilboa.runVectorProvider' c defaultSec (m0 j) (rnd j) (List.replicate len y) : PM (Msg T) _) (Gilboa.runValueProvider' c defaultSec x len) (.ok X') (.ok Y') va vb ∧
      X'.length = len ∧ Y'.length = len ∧ ∀ k : Nat, k < len → ∃ a b, X'[k]? = some a ∧ Y'[k]? = some b ∧ a + b = x * y := by
    intro j
    obtain ⟨r0, r1, va, vb, hc, l1, l2, h1⟩ := Gilboa.C23_product inferInstance c defaultSec (m0 j) (rnd j) x (List.replicate len y) (List.replicate len 0) (List.replicate len 0)
      (by simp) (by simp) (by rw [List.length_replicate]; exact hl)
    refine ⟨r0, r1, va, vb, ?_, by simpa using l1, by simpa using l2, fun k hk => h1 k y (by simp [hk])⟩
    unfold Gilboa.runVectorProvider' Gilboa.runValueProvider'
    rw [if_neg (by omega), Int.toNat_natCast, List.length_replicate]
    exact hc.joint
  obtain ⟨f, rfl⟩ : ∃ f, fuel = f + 1 := ⟨fuel - 1, by omega⟩
  obtain ⟨X, Y, v1, w1, j1, r1⟩ := hstep 0
  obtain ⟨xs, ys, v2, w2, j2, i2, r2⟩ := loops c (step := fun i _ => Gilboa.runVectorProvider' c defaultSec (m0 (i + 1)) (rnd (i + 1)) (List.replicate len y))
    (step' := fun _ _ => Gilboa.runValueProvider' c defaultSec x len) (Inv := fun _ _ => True)
    (R := fun _ X' Y' => X'.length = len ∧ Y'.length = len ∧ ∀ k : Nat, k < len → ∃ a b, X'[k]? = some a ∧ Y'[k]? = some b ∧ a + b = x * y)
    (by
      intro i j _ _ _
      obtain ⟨X', Y', va, vb, hj, h2⟩ := hstep (i + 1)
      exact ⟨X', Y', va, vb, hj, trivial, h2⟩) n 0 1 f X Y (by omega) trivial
  have hj : ∃ va vb, Joint (gilboaMain P c m0 rnd y len n) (gilboaThread Q c x len (f + 1)) (.ok (X :: xs)) (.ok (Y :: ys)) va vb := by
    unfold gilboaMain gilboaThread
    refine bindOk' (gilboa_joint (T := T) hPQ c default_ok) ?_
    rw [serve_succ _ _ _ rfl]
    refine bindOk' ⟨_, _, j1⟩ ?_
    rw [← bind_pure (hear c >>= _)]
    exact bindOk' ⟨_, _, j2⟩ ⟨_, _, Joint.ret _ _⟩
  obtain ⟨va, vb, hj⟩ := hj
  refine ⟨X :: xs, Y :: ys, va, vb, hj.computes, by simp [i2], by simp [← r2.1, i2], ?_⟩
  intro i X' Y' hX hY
  cases i with
  | zero =>
    simp only [List.getElem?_cons_zero, Option.some.injEq] at hX hY
    subst hX; subst hY
    exact r1
  | succ i =>
    simp only [List.getElem?_cons_succ] at hX hY
    exact r2.2 i X' Y' hX hY

/-! ### The benchmark of the MPFSS -/

omit [LawfulScalar T]

theorem create_waits (aes : Cipher) (bits : Sec → Nat → Nat → Nat → Bool) (optimal : Sec → Nat → Nat → Int) (P : Party) (seed : Block) (c : Chans) {α : Type}
    (g : Mpfss → PM (Msg T) α) :
    ∃ k, (mpfssCreate aes bits optimal P seed (some c) defaultSec >>= g : PM (Msg T) α) = Proc.recv c.main k ∨
      (mpfssCreate aes bits optimal P seed (some c) defaultSec >>= g : PM (Msg T) α) = Proc.send c.main .token (.recv c.main k) := by
  unfold mpfssCreate
  simp only [not_negative default_ok, Bool.false_eq_true, if_false]
  unfold sync
  by_cases hs : (P.sendFirst || P.lower) = true
  · rw [if_pos hs]; exact ⟨_, .inr rfl⟩
  · rw [if_neg hs]; exact ⟨_, .inl rfl⟩

/-- C70, negation: the benchmark of the MPFSS hangs. The main thread creates its object, which waits for the other party, before it
    starts the thread in which the other party would run. No execution comes to an end on either side; after at most one step no
    further step is possible. -/
theorem C70_mpfss_benchmark_hangs (aes : Cipher) (bits : Sec → Nat → Nat → Nat → Bool) (optimal : Sec → Nat → Nat → Int) (P : Party) (seed : Block) (c : Chans)
    {start : Nat} (hstart : start ≠ c.main) {α β : Type} (rest : Mpfss → PM (Msg T) α) (body : PM (Msg T) β) :
    (∃ n st, Steps n (init (mpfssMain aes bits optimal P seed c start rest) (mpfssThread start body)) st ∧ Stuck st) ∧
    ∀ n st, Steps n (init (mpfssMain aes bits optimal P seed c start rest) (mpfssThread start body)) st → n ≤ 1 ∧ (∀ o, st.p ≠ .ret o) ∧ ∀ o, st.q ≠ .ret o := by
  have hT : (mpfssThread start body : PM (Msg T) β) = Proc.recv start (fun _ => body) := rfl
  obtain ⟨k, hk⟩ := create_waits aes bits optimal P seed c (fun o => PM.send start .token >>= fun _ => rest o)
  have hM : mpfssMain aes bits optimal P seed c start rest = (mpfssCreate aes bits optimal P seed (some c) defaultSec >>= fun o => PM.send start .token >>= fun _ => rest o) := rfl
  rw [hT, hM]
  have no : ∀ (pq qp : Nat → List (Msg T)) (pv qv : List (Event (Msg T))) t, pq start = [] → qp c.main = [] →
      ¬ Step (⟨.recv c.main k, .recv start (fun _ => body), pq, qp, pv, qv⟩ : Net (Msg T) (Out α) (Out β)) t := by
    intro pq qp pv qv t h1 h2 h
    cases h with
    | pRecv => simp_all
    | qRecv => simp_all
  rcases hk with hk | hk <;> rw [hk]
  · refine ⟨⟨0, _, .zero _, fun t => no _ _ _ _ t rfl rfl, by rintro ⟨a, b, h, -⟩; cases h⟩, ?_⟩
    intro n st hst
    cases hst with
    | zero => exact ⟨by omega, fun o h => (by cases h), fun o h => (by cases h)⟩
    | succ h1 => exact absurd h1 (no _ _ _ _ _ rfl rfl)
  · have h1 : Step (init (.send c.main .token (.recv c.main k)) (.recv start (fun _ => body)) : Net (Msg T) (Out α) (Out β)) _ := Step.pSend _ _ _ _ _ _ _ _
    have e : (Function.update (fun _ => []) c.main ([] ++ [Msg.token]) : Nat → List (Msg T)) start = [] := by rw [Function.update_of_ne hstart]
    refine ⟨⟨1, _, .succ h1 (.zero _), fun t => no _ _ _ _ t e rfl, by rintro ⟨a, b, h, -⟩; cases h⟩, ?_⟩
    intro n st hst
    cases hst with
    | zero => exact ⟨by omega, fun o h => (by cases h), fun o h => (by cases h)⟩
    | succ h2 h3 =>
      cases h2 with
      | pSend =>
        cases h3 with
        | zero => exact ⟨by omega, fun o h => (by cases h), fun o h => (by cases h)⟩
        | succ h4 => exact absurd h4 (no _ _ _ _ _ e rfl)
      | qRecv _ _ _ _ _ _ _ _ _ h => cases h

end

/-! ### The hypotheses can be met -/

section
attribute [local instance] scalarUInt

theorem ex_ready : Ready exactBits exact3 ⟨true, false, .ok (), .ok ()⟩ ⟨false, false, .ok (), .ok ()⟩ 3 4 (exEnv true 1) (exEnv false 2) :=
  ⟨ex_world, ⟨exact3_faithful, exactBits_faithful⟩, C69_vole_types.2.2.2.1, ex_lucky _ _ _ _ _, ex_lucky _ _ _ _ _⟩

example := C70_vole ex_ready rfl 0 7 (n := 2 ^ 24) (by norm_num) (by norm_num) (by simp [exEnv, toyEnv]) (by simp [exEnv, toyEnv])

example := C70_run ex_ready 0 7 (len := 2 ^ 20) (n := 1000) (by norm_num) (by norm_num) (by simp [exEnv, toyEnv]) (by simp [exEnv, toyEnv]) (by norm_num)
  (by simp [exEnv, toyEnv])

example := C70_precompute (n := 10) (A := fun _ => exEnv true 1) (B := fun _ => exEnv false 2) (seed := fun _ => 3) (seed' := fun _ => 4) (fun _ _ => ex_ready)
  (fun _ => 0) (fun _ => 7) (len := 2 ^ 24) (by norm_num) (by norm_num)

example (m0 m0' : Nat → Block) (rnd rnd' : Nat → List (BitVec 64)) := C70_gilboa (P := ⟨true, false, .ok (), .ok ()⟩) (Q := ⟨false, false, .ok (), .ok ()⟩)
  ⟨rfl, rfl, rfl, rfl, rfl, rfl⟩ rfl ⟨0, 1, 2⟩ m0 m0' rnd rnd' 42 23 (C70_lengths inferInstance (by decide) (n := 2 ^ 24) (by norm_num))

example (m0 : Nat → Nat → Block) (rnd : Nat → Nat → List (BitVec 64)) := C70_gilboa_benchmark (P := ⟨false, false, .ok (), .ok ()⟩) (Q := ⟨true, false, .ok (), .ok ()⟩)
  ⟨rfl, rfl, rfl, rfl, rfl, rfl⟩ ⟨0, 1, 2⟩ m0 rnd 42 23 (C70_lengths inferInstance (by decide) (n := 2 ^ 24) (by norm_num)) (n := 100) (fuel := 101) (by norm_num)

example (key seed key' seed' : Nat → Block) := C70_spfss (T := BitVec 64) C69_types.2.2.2.1 GGM.exCipher GGM.exactDepth_faithful (P := ⟨true, false, .ok (), .ok ()⟩)
  (Q := ⟨false, false, .ok (), .ok ()⟩) ⟨rfl, rfl, rfl, rfl, rfl, rfl⟩ rfl ⟨0, 1, 2⟩ key seed key' seed' (n := 2 ^ 24) (by norm_num)

example (key seed : Nat → Nat → Block) := C70_spfss_benchmark (T := BitVec 64) C69_types.2.2.2.1 GGM.exCipher GGM.exactDepth_faithful (P := ⟨false, false, .ok (), .ok ()⟩)
  (Q := ⟨true, false, .ok (), .ok ()⟩) ⟨rfl, rfl, rfl, rfl, rfl, rfl⟩ ⟨0, 1, 2⟩ key seed 42 23 (len := 2 ^ 24) (n := 100) (fuel := 101) (by norm_num) (by norm_num) (by norm_num)

example (rest : Mpfss → PM (Msg (BitVec 64)) Unit) (body : PM (Msg (BitVec 64)) Unit) :=
  C70_mpfss_benchmark_hangs GGM.exCipher exactBits exact3 ⟨true, false, .ok (), .ok ()⟩ 3 ⟨0, 1, 2⟩ (start := 9) (by decide) rest body

example : ((2 : Nat) ^ 60 - 93) ∈ [251, 65521, 2 ^ 32 - 5, 2 ^ 60 - 93] := by decide

end

end DVO.Clients
