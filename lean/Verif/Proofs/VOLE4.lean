/-
Vector OLE: precomputation by two parties.
-/
import Verif.Proofs.VOLE3

namespace DVO.VOLE
open Net MPFSS
set_option linter.unusedSectionVars false
variable {T : Type} [Scalar T] {P : Out Unit → Prop} {h : Cuckoo.Hasher} {A B : Env T}

theorem Pair.run {α β : Type} {p : PM (Msg T) α} {q : PM (Msg T) β} {a : α} {b : β} {va vb : List (Event (Msg T))} {s r : VState T}
    (J : Joint (p : Proc (Msg T) (Out α)) (q : Proc (Msg T) (Out β)) (.ok a) (.ok b) va vb) :
    Pair P (VM.run p s) (VM.run q r) (fun x s' y r' => x = a ∧ y = b ∧ s' = s ∧ r' = r) := by
  left
  refine ⟨a, s, b, r, va ++ [], vb ++ [], ?_, rfl, rfl, rfl, rfl⟩
  exact Joint.bind J (f := fun x => .ret (x, s)) (g := fun x => .ret (x, r)) (Joint.ret _ _)

/-- Row `i` of the parameter table: noise `t` and seed size `v`. -/
structure IsRow (i t v : Nat) : Prop where
  noise : noiseSizes[i]? = some (t : Int)
  seed : seedSizes[i]? = some (v : Int)

theorem IsRow.lt {i t v : Nat} (H : IsRow i t v) : i < 5 := by
  have := (List.getElem?_eq_some_iff.1 H.noise).1
  simpa [noiseSizes] using this

theorem IsRow.mem {i t v : Nat} (H : IsRow i t v) : (t : Int) ∈ noiseSizes := List.mem_of_getElem? H.noise

theorem IsRow.bounds {i t v : Nat} (H : IsRow i t v) : t ≤ v ∧ 1589 ≤ v ∧ v ≤ 588160 := by
  have := H.lt
  obtain ⟨h1, h2⟩ := H
  have : i = 0 ∨ i = 1 ∨ i = 2 ∨ i = 3 ∨ i = 4 := by omega
  rcases this with rfl | rfl | rfl | rfl | rfl <;> simp [noiseSizes, seedSizes] at h1 h2 <;> omega

theorem IsRow.exists {i : Nat} (hi : i < 5) : ∃ t v, IsRow i t v := by
  have : i = 0 ∨ i = 1 ∨ i = 2 ∨ i = 3 ∨ i = 4 := by omega
  rcases this with rfl | rfl | rfl | rfl | rfl
  · exact ⟨98, 1589, rfl, rfl⟩
  · exact ⟨198, 3482, rfl, rfl⟩
  · exact ⟨382, 7391, rfl, rfl⟩
  · exact ⟨1254, 37248, rfl, rfl⟩
  · exact ⟨1324, 588160, rfl, rfl⟩

/-- The seed size determines the row. -/
theorem IsRow.unique {i i' t t' v : Nat} (H : IsRow i t v) (H' : IsRow i' t' v) : t = t' := by
  have h1 := H.lt
  have h2 := H'.lt
  obtain ⟨a1, a2⟩ := H
  obtain ⟨b1, b2⟩ := H'
  have e1 : i = 0 ∨ i = 1 ∨ i = 2 ∨ i = 3 ∨ i = 4 := by omega
  have e2 : i' = 0 ∨ i' = 1 ∨ i' = 2 ∨ i' = 3 ∨ i' = 4 := by omega
  rcases e1 with rfl | rfl | rfl | rfl | rfl <;> rcases e2 with rfl | rfl | rfl | rfl | rfl <;>
    simp [noiseSizes, seedSizes] at a1 a2 b1 b2 <;> omega

/-- What a sender operation leaves alone. -/
structure SFrame (s s' : VState T) : Prop where
  rCached : s'.rCached = s.rCached
  rVole : s'.rVole = s.rVole
  rMpfss : s'.rMpfss = s.rMpfss
  rDone : s'.rDone = s.rDone

/-- What a receiver operation leaves alone. -/
structure RFrame (s s' : VState T) : Prop where
  sCached : s'.sCached = s.sCached
  sVole : s'.sVole = s.sVole
  sMpfss : s'.sMpfss = s.sMpfss
  sDone : s'.sDone = s.sDone

theorem SFrame.refl (s : VState T) : SFrame s s := ⟨rfl, rfl, rfl, rfl⟩
theorem RFrame.refl (s : VState T) : RFrame s s := ⟨rfl, rfl, rfl, rfl⟩
theorem SFrame.trans {a b c : VState T} (x : SFrame a b) (y : SFrame b c) : SFrame a c :=
  ⟨y.1.trans x.1, y.2.trans x.2, y.3.trans x.3, y.4.trans x.4⟩
theorem RFrame.trans {a b c : VState T} (x : RFrame a b) (y : RFrame b c) : RFrame a c :=
  ⟨y.1.trans x.1, y.2.trans x.2, y.3.trans x.3, y.4.trans x.4⟩

/-- During a precomputation, with the seeds of row `i`. -/
structure Boot (h : Cuckoo.Hasher) (d : T) (i t v : Nat) (s r : VState T) : Prop where
  row : IsRow i t v
  cohS : Coherent h s.mpfss
  cohR : Coherent h r.mpfss
  noiseS : s.noise = t
  noiseR : r.noise = t
  voleS : s.voleSize = v
  voleR : r.voleSize = v
  mpfssS : s.mpfssSize = h.optimal t
  mpfssR : r.mpfssSize = h.optimal t
  cached : Corr d s.sCached r.rCached
  vole : Corr d s.sVole r.rVole
  mpfss : Corr d s.sMpfss r.rMpfss
  empty : s.sCached.u.length = 0
  lenV : s.sVole.u.length = v
  lenM : (s.sMpfss.u.length : Int) = h.optimal t
  log : s.log = r.log

theorem i64_ok {x : Int} (h1 : -2 ^ 63 ≤ x) (h2 : x < 2 ^ 63) : i64 x = .ok x := by
  unfold i64; rw [if_neg (by omega)]

theorem i32_ok {x : Int} (h1 : -2 ^ 31 ≤ x) (h2 : x < 2 ^ 31) : i32 x = .ok x := by
  unfold i32; rw [if_neg (by omega)]

theorem rd_of_get {α : Type} {l : List α} {i : Nat} {a : α} (h : l[i]? = some a) : rd l i = .ok a := by
  obtain ⟨h1, h2⟩ := List.getElem?_eq_some_iff.1 h
  rw [rd_of_lt h1, h2]

theorem SRes.last_len {c : SRes T} {n : Nat} (hn : n ≤ c.u.length) : (c.last n).u.length = n := by
  simp [SRes.last]; omega

theorem SRes.rest_len {c : SRes T} {n : Nat} : (c.rest n).u.length = c.u.length - n := by
  simp [SRes.rest]

/-- The sizes that occur while bootstrapping for `batch` are bounded by `M` and `N`. -/
def Enough (h : Cuckoo.Hasher) (batch : Int) (M N : Nat) : Prop :=
  ∀ i t v t' v' o, IsRow i t v → IsRow (i + 1) t' v' → outputSizes[i]? = some o → o < batch + h.optimal t + v →
    v' + h.optimal t' ≤ M ∧ v' + h.optimal t' ≤ N

theorem Enough.all (W : Together h A B) (batch : Int) : Enough h batch 10616092 10616092 := by
  intro i t v t' v' o H H' _ _
  obtain ⟨c1, c2, c3⟩ := H'.bounds
  have := W.optimal_lt H'.mem
  omega

/-- One step of the bootstrapping loop. -/
theorem bootStep_pair {M N : Nat} (hP : ∀ o, Expected o → ¬ (SmoothTo M N h A ∧ SmoothTo M N h B) → P o) (W : Together h A B) {d : T} {i t v t' v' : Nat} {s r : VState T}
    (H : Boot h d i t v s r) (H' : IsRow (i + 1) t' v') {b : Nat} (hb : (b : Int) = h.optimal t')
    (hM : v' + b ≤ M) (hN : v' + b ≤ N) :
    Pair P ((precomputeCommon A ((v' + b : Nat) : Int) >>= fun _ => expandSender A ((v' + b : Nat) : Int) v' b >>= fun _ =>
        VM.modify (fun s => { s with noise := t' })) s)
      ((precomputeCommon B ((v' + b : Nat) : Int) >>= fun _ => expandReceiver B ((v' + b : Nat) : Int) v' b >>= fun _ =>
        VM.modify (fun s => { s with noise := t' })) r)
      (fun _ s' _ r' => Boot h d (i + 1) t' v' s' r' ∧ SFrame s s' ∧ RFrame r r' ∧ s'.sDone = s.sDone ∧ r'.rDone = r.rDone) := by
  have hlt := W.optimal_lt H'.mem
  obtain ⟨b1, b2, b3⟩ := H.row.bounds
  obtain ⟨c1, c2, c3⟩ := H'.bounds
  have hle : t ≤ v' + b := by have := noise_le H.row.mem; omega
  refine Pair.bind (common_pair hP W (vs := v) H.row.mem hle (by omega) hM H.cohS H.cohR H.noiseS H.noiseR (by omega) H.voleS H.voleR) ?_
  rintro - s1 - r1 ⟨st, st', c, p, q, h1, h2, h3, rfl, rfl⟩
  refine Pair.bind (expand_pair hP W (d := d) (t := t) (nv := v') (nm := b) H.row.mem hle (by omega) hN (by exact h1) (by exact h2)
    (by exact H.noiseS) (by exact H.noiseR) rfl (by rw [H.lenV]; exact h3.toCodeOk) (by exact H.cached) (by exact H.vole) (by exact H.mpfss)
    (by exact H.lenM) (by omega)) ?_
  rintro - s2 - r2 ⟨c2, e, st2, st2', p2, q2, n, n', us, us', hce, hlen, hc1, hc2, rfl, rfl⟩
  have hlen' : c2.u.length = v' + b := by rw [hlen]; show s.sCached.u.length + _ = _; rw [H.empty]; omega
  refine Pair.ret ⟨?_, ⟨rfl, rfl, rfl, rfl⟩, ⟨rfl, rfl, rfl, rfl⟩, rfl, rfl⟩
  refine ⟨H', hc1, hc2, rfl, rfl, rfl, rfl, hb, hb, (hce.rest _).rest _, hce.last _, (hce.rest _).last _, ?_, ?_, ?_, ?_⟩
  · show ((c2.rest v').rest b).u.length = 0
    rw [SRes.rest_len, SRes.rest_len]; omega
  · show (c2.last v').u.length = v'
    rw [SRes.last_len (by omega)]
  · show (((c2.rest v').last b).u.length : Int) = _
    rw [SRes.last_len (by rw [SRes.rest_len]; omega), hb]
  · show s.log ++ [_] = r.log ++ [_]
    rw [H.log, H.voleS, H.voleR]

theorem outputSizes_get {i : Nat} (hi : i < 5) : ∃ o, outputSizes[i]? = some o := ⟨_, List.getElem?_eq_getElem (by simpa [outputSizes] using hi)⟩

theorem boot_pair {M N : Nat} (hP : ∀ o, Expected o → ¬ (SmoothTo M N h A ∧ SmoothTo M N h B) → P o) (W : Together h A B) {d : T} {batch : Int} (hb0 : 1 ≤ batch) (hb1 : batch < 2 ^ 62)
    (hE : Enough h batch M N) (k : Nat) : ∀ {i t v : Nat} {s r : VState T}, i + k = 4 → Boot h d i t v s r →
    Pair P (bootSender A batch k i s) (bootReceiver B batch k i r)
      (fun _ s' _ r' => (∃ j t' v', Boot h d j t' v' s' r') ∧ SFrame s s' ∧ RFrame r r' ∧ s'.sDone = s.sDone ∧ r'.rDone = r.rDone) := by
  induction k with
  | zero =>
    intro i t v s r hik H
    exact Pair.ret ⟨⟨i, t, v, H⟩, .refl _, .refl _, rfl, rfl⟩
  | succ k ih =>
    intro i t v s r hik H
    obtain ⟨o, ho⟩ := outputSizes_get (i := i) (by omega)
    obtain ⟨t', v', H'⟩ := IsRow.exists (i := i + 1) (by omega)
    have hp := W.optimal_pos H.row.mem
    have hl := W.optimal_lt H.row.mem
    obtain ⟨b1, b2, b3⟩ := H.row.bounds
    obtain ⟨c1, c2, c3⟩ := H'.bounds
    have hp' := W.optimal_pos H'.mem
    have hl' := W.optimal_lt H'.mem
    have hS : s.mpfss.hasher = h := H.cohS.hasher
    have hR : r.mpfss.hasher = h := H.cohR.hasher
    unfold bootSender bootReceiver
    rw [VM.get_bind, VM.get_bind, rd_of_get ho, VM.lift_ok_bind, VM.lift_ok_bind, H.mpfssS, H.mpfssR, H.voleS, H.voleR]
    rw [i64_ok (by omega) (by omega), Out.ok_bind, i64_ok (by omega) (by omega), VM.lift_ok_bind]
    rw [i64_ok (by omega) (by omega), Out.ok_bind, i64_ok (by omega) (by omega), VM.lift_ok_bind]
    by_cases hg : o ≥ batch + h.optimal t + v
    · rw [if_pos hg, if_pos (by omega)]
      exact Pair.ret ⟨⟨i, t, v, H⟩, .refl _, .refl _, rfl, rfl⟩
    · rw [if_neg hg, if_neg (by omega), rd_of_get H'.seed, rd_of_get H'.noise, hS, hR, VM.lift_ok_bind, VM.lift_ok_bind, numBuckets_eq W H'.mem,
        VM.lift_ok_bind, i32_ok (by omega) (by omega), VM.lift_ok_bind]
      rw [VM.lift_ok_bind, VM.lift_ok_bind, numBuckets_eq W H'.mem, VM.lift_ok_bind, i32_ok (by omega) (by omega), VM.lift_ok_bind]
      obtain ⟨b, hb⟩ : ∃ b : Nat, (b : Int) = h.optimal t' := ⟨(h.optimal t').toNat, by omega⟩
      obtain ⟨e1, e2⟩ := hE _ _ _ _ _ _ H.row H' ho (by omega)
      have step := bootStep_pair hP W H H' hb (by omega) (by omega)
      rw [← hb, show ((v' : Int) + (b : Int)) = ((v' + b : Nat) : Int) by push_cast; rfl]
      have e : ∀ (E : Env T) (x : VM T Unit) (f g : Unit → VM T Unit) (y : VM T Unit), (x >>= fun _ => f () >>= fun _ => g () >>= fun _ => y) =
          ((x >>= fun _ => f () >>= fun _ => g ()) >>= fun _ => y) := by
        intro E x f g y
        rw [VM.bind_assoc]
        congr 1
        funext _
        rw [VM.bind_assoc]
      rw [e A _ (fun _ => expandSender A ((v' + b : Nat) : Int) v' b) (fun _ => VM.modify (fun s => { s with noise := t' })),
        e B _ (fun _ => expandReceiver B ((v' + b : Nat) : Int) v' b) (fun _ => VM.modify (fun s => { s with noise := t' }))]
      refine Pair.bind step ?_
      rintro - s' - r' ⟨H2, f1, f2, d1, d2⟩
      refine (ih (by omega) H2).mono ?_
      rintro - s'' - r'' ⟨g1, g2, g3, g4, g5⟩
      exact ⟨g1, f1.trans g2, f2.trans g3, g4.trans d1, g5.trans d2⟩

theorem start_bind {β : Type} (W : Together h A B) {s : VState T} (hs : s.mpfss.hasher = h) (f : Int → VM T β) :
    (startPrecompute >>= f) s = f (1589 + h.optimal 98) { s with batch := 0, noise := 98, voleSize := 1589, mpfssSize := h.optimal 98 } := by
  have hm : ((98 : Nat) : Int) ∈ noiseSizes := by simp [noiseSizes]
  have hp := W.optimal_pos hm
  have hl := W.optimal_lt hm
  unfold startPrecompute
  rw [VM.bind_assoc, VM.modify_bind, VM.bind_assoc, rd_of_get (a := 98) rfl, VM.lift_ok_bind, VM.bind_assoc, rd_of_get (a := 1589) rfl, VM.lift_ok_bind,
    VM.bind_assoc, VM.modify_bind, VM.bind_assoc, VM.get_bind, VM.bind_assoc]
  dsimp only
  have e := numBuckets_eq W hm
  rw [hs, show (98 : Int) = ((98 : Nat) : Int) from rfl, e, VM.lift_ok_bind, VM.bind_assoc, VM.modify_bind, i32_ok (by omega) (by omega), VM.lift_ok_bind]

/-- After a precomputation, or later. -/
structure Ready (h : Cuckoo.Hasher) (s : VState T) (t v b : Nat) : Prop where
  row : ∃ i, IsRow i t v
  noise : s.noise = t
  vole : s.voleSize = v
  mpfss : s.mpfssSize = h.optimal t
  batch : s.batch = b
  pos : 1 ≤ b
  le : (b : Int) + v + h.optimal t ≤ 10616092
  code : CodeOk s.code v (b + v + (h.optimal t).toNat)

theorem finish_pair {M N : Nat} (hP : ∀ o, Expected o → ¬ (SmoothTo M N h A ∧ SmoothTo M N h B) → P o) (W : Together h A B) {d : T} {batch : Int} (hb0 : 1 ≤ batch)
    {i t v : Nat} {s r : VState T} (H : Boot h d i t v s r) (hM : min batch (10616092 - h.optimal t - v) + v + h.optimal t ≤ M) :
    Pair P (finishPrecompute A batch s) (finishPrecompute B batch r)
      (fun _ s' _ r' => ∃ b st st' c p q, Coherent h st ∧ Coherent h st' ∧ s' = { s with batch := b, mpfss := st, code := c, pos := p } ∧
        r' = { r with batch := b, mpfss := st', code := c, pos := q } ∧ b = min batch (10616092 - h.optimal t - v) ∧
        Ready h s' t v b.toNat ∧ Ready h r' t v b.toNat) := by
  have hp := W.optimal_pos H.row.mem
  have hl := W.optimal_lt H.row.mem
  obtain ⟨b1, b2, b3⟩ := H.row.bounds
  unfold finishPrecompute
  rw [VM.get_bind, VM.get_bind, rd_of_get (a := 10616092) rfl, VM.lift_ok_bind, VM.lift_ok_bind, H.mpfssS, H.mpfssR, H.voleS, H.voleR,
    i32_ok (by omega) (by omega), Out.ok_bind, i32_ok (by omega) (by omega), VM.lift_ok_bind, VM.lift_ok_bind, VM.modify_bind, VM.modify_bind,
    VM.get_bind, VM.get_bind]
  dsimp only
  obtain ⟨b, hb⟩ : ∃ b : Nat, (b : Int) = min batch (10616092 - h.optimal t - v) := ⟨(min batch (10616092 - h.optimal t - v)).toNat, by omega⟩
  rw [← hb, H.mpfssS, H.mpfssR, H.voleS, H.voleR,
    show (b : Int) + v + h.optimal t = ((b + v + (h.optimal t).toNat : Nat) : Int) by push_cast; omega]
  refine (common_pair hP W (vs := v) H.row.mem (by omega) (by omega) (by omega) (by exact H.cohS) (by exact H.cohR) (by exact H.noiseS) (by exact H.noiseR)
    (by omega) rfl rfl).mono ?_
  rintro - s1 - r1 ⟨st, st', c, p, q, h1, h2, h3, rfl, rfl⟩
  refine ⟨b, st, st', c, p, q, h1, h2, by rw [← H.mpfssS, ← H.voleS], by rw [← H.mpfssR, ← H.voleR], rfl, ?_, ?_⟩
  · exact ⟨⟨i, H.row⟩, H.noiseS, rfl, rfl, by simp, by omega, by omega, by simpa using h3.toCodeOk⟩
  · exact ⟨⟨i, H.row⟩, H.noiseR, rfl, rfl, by simp, by omega, by omega, by simpa using h3.toCodeOk⟩

end DVO.VOLE
