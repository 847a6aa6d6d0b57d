/-
Vector OLE: runs by two parties.
-/
import Verif.Proofs.VOLE5
import Verif.Proofs.Local

namespace DVO.VOLE
open Net MPFSS
set_option linter.unusedSectionVars false
variable {T : Type} [Scalar T] [LawfulScalar T] {P : Out Unit → Prop} {h : Cuckoo.Hasher} {A B : Env T}

/-- What the two parties share after a precomputation. -/
structure Shared (h : Cuckoo.Hasher) (t v b : Nat) (s r : VState T) : Prop where
  cohS : Coherent h s.mpfss
  cohR : Coherent h r.mpfss
  readyS : Ready h s t v b
  readyR : Ready h r t v b
  code : r.code = s.code
  log : s.log = r.log

/-- What holds between the sender's and the receiver's elements. `Q`: the seeds may belong to another
    row of the parameter table. -/
structure Dir (h : Cuckoo.Hasher) (Q : Prop) (d : T) (s r : VState T) : Prop where
  cached : Corr d s.sCached r.rCached
  vole : Corr d s.sVole r.rVole
  mpfss : Corr d s.sMpfss r.rMpfss
  seeds : ∃ i t v, IsRow i t v ∧ s.sVole.u.length = v ∧ (s.sMpfss.u.length : Int) = h.optimal t ∧ (Q ∨ s.voleSize = v)

/-- The error message of a code generator that does not fit the seeds. -/
def wrongDims : String := "Code generator has the wrong dimensions"

theorem Corr.nil (d : T) : Corr d (⟨[], [], []⟩ : SRes T) ⟨[], d, []⟩ := ⟨.nil d, rfl⟩

/-- One expansion during a run. -/
theorem runExpand_pair {M N : Nat} (hN : 10616092 ≤ N) (hP : ∀ o, Expected o → ¬ (SmoothTo M N h A ∧ SmoothTo M N h B) → P o) (W : Together h A B) {d : T} {t v b : Nat} {s r : VState T}
    (H : Shared h t v b s r) (D : Dir h (P (.err .internal wrongDims)) d s r) :
    Pair P (expandSender A (s.batch + s.voleSize + s.mpfssSize) s.voleSize s.mpfssSize s)
      (expandReceiver B (r.batch + r.voleSize + r.mpfssSize) r.voleSize r.mpfssSize r)
      (fun _ s' _ r' => Shared h t v b s' r' ∧ Dir h (P (.err .internal wrongDims)) d s' r' ∧ s'.sCached.u.length = s.sCached.u.length + b ∧
        SFrame s s' ∧ RFrame r r' ∧ s'.sDone = s.sDone ∧ r'.rDone = r.rDone) := by
  obtain ⟨i, hi⟩ := H.readyS.row
  obtain ⟨b1, b2, b3⟩ := hi.bounds
  have hp := W.optimal_pos hi.mem
  have hl := H.readyS.le
  obtain ⟨m, hm⟩ : ∃ m : Nat, (m : Int) = h.optimal t := ⟨(h.optimal t).toNat, by omega⟩
  have hm' : (h.optimal t).toNat = m := by omega
  obtain ⟨i0, t0, v0, hr0, hv0, hm0, hq⟩ := D.seeds
  by_cases hvv : v0 = v
  swap
  · have hq : P (.err .internal wrongDims) := by
      rcases hq with hq | hq
      · exact hq
      · rw [H.readyS.vole] at hq; omega
    unfold expandSender
    rw [VM.get_bind, if_neg (by have := D.vole.corr.len_v; omega), if_pos (by
      left; rw [H.readyS.code.rows_, hv0]; omega)]
    exact Pair.failL hq
  subst hvv
  have htt : t0 = t := hr0.unique hi
  subst htt
  have hc := H.readyS.code
  rw [H.readyS.batch, H.readyS.vole, H.readyS.mpfss, H.readyR.batch, H.readyR.vole, H.readyR.mpfss, ← hm,
    show (b : Int) + v0 + m = ((b + v0 + m : Nat) : Int) by push_cast; rfl]
  refine (expand_pair hP W (d := d) (t := t0) (nv := v0) (nm := m) (o := b + v0 + m) hi.mem (by omega) (by omega) (by omega) H.cohS H.cohR
    H.readyS.noise H.readyR.noise H.code (by rw [hv0, ← hm']; exact hc) D.cached D.vole D.mpfss hm0 (by omega)).mono ?_
  rintro - s1 - r1 ⟨c, e, st, st', p, q, n, n', us, us', hce, hlen, h1, h2, rfl, rfl⟩
  refine ⟨⟨h1, h2, ?_, ?_, H.code, by show _ ++ [_] = _ ++ [_]; rw [H.log, H.readyS.vole, H.readyR.vole]⟩, ⟨(hce.rest _).rest _, hce.last _, (hce.rest _).last _, ?_⟩, ?_, ⟨rfl, rfl, rfl, rfl⟩, ⟨rfl, rfl, rfl, rfl⟩, rfl, rfl⟩
  · exact ⟨H.readyS.row, H.readyS.noise, rfl, hm, H.readyS.batch, H.readyS.pos, H.readyS.le, H.readyS.code⟩
  · exact ⟨H.readyR.row, H.readyR.noise, rfl, hm, H.readyR.batch, H.readyR.pos, H.readyR.le, H.readyR.code⟩
  · refine ⟨i0, t0, v0, hr0, ?_, ?_, .inr rfl⟩
    · show (c.last v0).u.length = v0
      rw [SRes.last_len (by omega)]
    · show (((c.rest v0).last m).u.length : Int) = _
      rw [SRes.last_len (by rw [SRes.rest_len]; omega), hm]
  · show ((c.rest v0).rest m).u.length = _
    rw [SRes.rest_len, SRes.rest_len]; omega

/-! ### The loop -/

theorem setSeg_eq {α : Type} {l y : List α} {off : Nat} (hl : off + y.length ≤ l.length) :
    setSeg l off y = .ok (l.take off ++ y ++ l.drop (off + y.length)) := by
  unfold setSeg; rw [if_pos hl]

theorem setTail_eq {α : Type} {l y : List α} {n : Nat} (h1 : n ≤ l.length) (h2 : y.length = n) :
    setTail l (n : Int) y = .ok (l.take (l.length - n) ++ y) := by
  unfold setTail
  rw [if_neg (by omega), Int.toNat_natCast]

/-- Before each iteration of the loop. -/
structure Partial (d : T) (n copied : Nat) (a : SRes T) (e : RRes T) : Prop where
  u : a.u.length = n
  v : a.v.length = n
  w : e.w.length = n
  delta : e.delta = d
  corr : Correlated d (a.u.take copied) (a.v.take copied) (e.w.take copied)

theorem Partial.done {d : T} {n copied : Nat} {a : SRes T} {e : RRes T} (H : Partial d n copied a e) (hc : n ≤ copied) :
    Corr d a e ∧ a.u.length = n := by
  have := H.corr
  rw [List.take_of_length_le (by rw [H.u]; exact hc), List.take_of_length_le (by rw [H.v]; exact hc),
    List.take_of_length_le (by rw [H.w]; exact hc)] at this
  exact ⟨⟨this, H.delta⟩, H.u⟩

theorem take_seg {α : Type} {l y r : List α} {off n : Nat} (hl : off ≤ l.length) (hy : y.length = n) :
    (l.take off ++ y ++ r).take (off + n) = l.take off ++ y := by
  rw [List.take_append_of_le_length (by simp; omega), List.take_of_length_le (by simp; omega)]

/-- A run with the elements of the cache copied. -/
theorem Partial.seg {d : T} {n copied : Nat} {a : SRes T} {e : RRes T} (H : Partial d n copied a e) {c : SRes T} {g : RRes T}
    (hc : Corr d c g) (hl : copied + c.u.length ≤ n) (i j : List (Option Nat)) :
    Partial d n (copied + c.u.length) ⟨a.u.take copied ++ c.u ++ a.u.drop (copied + c.u.length),
      a.v.take copied ++ c.v ++ a.v.drop (copied + c.v.length), i⟩
      ⟨e.w.take copied ++ g.w ++ e.w.drop (copied + g.w.length), e.delta, j⟩ := by
  have h1 := hc.corr.len_v
  have h2 := hc.corr.len_w
  have hu := H.u
  have hv := H.v
  have hw := H.w
  refine ⟨by simp; omega, by simp; omega, by simp; omega, H.delta, ?_⟩
  show Correlated d (List.take _ (_ ++ _ ++ _)) (List.take _ (_ ++ _ ++ _)) (List.take _ (_ ++ _ ++ _))
  rw [take_seg (by omega) rfl, take_seg (by omega) h1, take_seg (by omega) h2]
  exact H.corr.append hc.corr

/-- A run with its last elements taken from the cache. -/
theorem Partial.tail {d : T} {n copied : Nat} {a : SRes T} {e : RRes T} (H : Partial d n copied a e) {c : SRes T} {g : RRes T}
    (hc : Corr d c g) (hl : copied + c.u.length = n) (i j : List (Option Nat)) :
    Partial d n n ⟨a.u.take copied ++ c.u, a.v.take copied ++ c.v, i⟩ ⟨e.w.take copied ++ g.w, e.delta, j⟩ := by
  have h1 := hc.corr.len_v
  have h2 := hc.corr.len_w
  have hu := H.u
  have hv := H.v
  have hw := H.w
  refine ⟨by simp; omega, by simp; omega, by simp; omega, H.delta, ?_⟩
  show Correlated d (List.take n (a.u.take copied ++ c.u)) (List.take n (a.v.take copied ++ c.v)) (List.take n (e.w.take copied ++ g.w))
  rw [List.take_of_length_le (l := a.u.take copied ++ c.u) (by simp; omega), List.take_of_length_le (l := a.v.take copied ++ c.v) (by simp; omega),
    List.take_of_length_le (l := e.w.take copied ++ g.w) (by simp; omega)]
  exact H.corr.append hc.corr

/-- The part of `Shared` and `Dir` that a run of the loop preserves. -/
def RunPost (h : Cuckoo.Hasher) (Q : Prop) (d : T) (t v b n : Nat) (s r : VState T) (a : SRes T) (s' : VState T) (e : RRes T) (r' : VState T) : Prop :=
  Corr d a e ∧ a.u.length = n ∧ Shared h t v b s' r' ∧ Dir h Q d s' r' ∧ SFrame s s' ∧ RFrame r r' ∧ s'.sDone = s.sDone ∧ r'.rDone = r.rDone

theorem senderLoop_done {E : Env T} {n copied fuel : Nat} {a : SRes T} {s : VState T} (hc : n ≤ copied) :
    runSenderLoop E n (fuel + 1) a copied s = .ret (.ok a, s) := by
  unfold runSenderLoop
  rw [if_neg (by omega)]
  rfl

theorem receiverLoop_done {E : Env T} {n copied fuel : Nat} {a : RRes T} {s : VState T} (hc : n ≤ copied) :
    runReceiverLoop E n (fuel + 1) a copied s = .ret (.ok a, s) := by
  unfold runReceiverLoop
  rw [if_neg (by omega)]
  rfl

theorem loop_finished {d : T} {t v b n copied fA fB : Nat} {Q : Prop} {a : SRes T} {e : RRes T} {s r : VState T} {s0 r0 : VState T}
    (hc : n ≤ copied) (hfuel : P .diverge ∨ 1 ≤ fA ∧ 1 ≤ fB) (hpar : Partial d n copied a e) (H : Shared h t v b s r) (D : Dir h Q d s r) (f1 : SFrame s0 s) (f2 : RFrame r0 r)
    (d1 : s.sDone = s0.sDone) (d2 : r.rDone = r0.rDone) :
    Pair P (runSenderLoop A n fA a copied s) (runReceiverLoop B n fB e copied r) (RunPost h Q d t v b n s0 r0) := by
  cases fA with
  | zero => exact Pair.failL (hfuel.resolve_right (by omega))
  | succ fA =>
    cases fB with
    | zero => exact Pair.failR (hfuel.resolve_right (by omega))
    | succ fB =>
      rw [senderLoop_done hc, receiverLoop_done hc]
      obtain ⟨h1, h2⟩ := hpar.done hc
      exact Pair.ret ⟨h1, h2, H, D, f1, f2, d1, d2⟩

/-- How many iterations are enough, with `l` elements in the cache. -/
def need (n copied l : Nat) : Nat := if n ≤ copied then 1 else n - copied + (if l = 0 then 2 else 1)

theorem need_pos (n copied l : Nat) : 1 ≤ need n copied l := by unfold need; split <;> omega

theorem need_step {n c l b f g : Nat} (h1 : c + l < n) (h2 : ¬ b = 0) (h3 : ¬ n ≤ c) (h : need n c l ≤ f + 1 ∧ need n c l ≤ g + 1) :
    need n (c + l) b ≤ f ∧ need n (c + l) b ≤ g := by
  obtain ⟨x, y⟩ := h
  unfold need at *
  rw [if_neg h3] at x y
  rw [if_neg (by omega), if_neg h2]
  split at x <;> simp_all <;> omega

theorem need_last {n c c' l l' f g : Nat} (h1 : n ≤ c') (h3 : ¬ n ≤ c) (h : need n c l ≤ f + 1 ∧ need n c l ≤ g + 1) :
    need n c' l' ≤ f ∧ need n c' l' ≤ g := by
  obtain ⟨x, y⟩ := h
  unfold need at *
  rw [if_neg h3] at x y
  rw [if_pos h1]
  split at x <;> simp_all <;> omega

theorem runLoop_pair {M N : Nat} (hN : 10616092 ≤ N) (hP : ∀ o, Expected o → ¬ (SmoothTo M N h A ∧ SmoothTo M N h B) → P o) (W : Together h A B) {d : T} {t v b n : Nat} {s0 r0 : VState T} (fA : Nat) :
    ∀ {fB copied : Nat} {a : SRes T} {e : RRes T} {s r : VState T}, Partial d n copied a e → copied ≤ n →
    (P .diverge ∨ need n copied s.sCached.u.length ≤ fA ∧ need n copied s.sCached.u.length ≤ fB) →
    Shared h t v b s r → Dir h (P (.err .internal wrongDims)) d s r → SFrame s0 s → RFrame r0 r → s.sDone = s0.sDone → r.rDone = r0.rDone →
    Pair P (runSenderLoop A n fA a copied s) (runReceiverLoop B n fB e copied r) (RunPost h (P (.err .internal wrongDims)) d t v b n s0 r0) := by
  induction fA with
  | zero =>
    intro fB copied a e s r _ _ hfuel
    have := need_pos n copied s.sCached.u.length
    intros; exact Pair.failL (hfuel.resolve_right (by omega))
  | succ fA ih =>
    intro fB copied a e s r hpar hcn hfuel H D f1 f2 d1 d2
    by_cases hdone : n ≤ copied
    · exact loop_finished hdone (hfuel.imp_right (by have := need_pos n copied s.sCached.u.length; omega)) hpar H D f1 f2 d1 d2
    cases fB with
    | zero =>
      have := need_pos n copied s.sCached.u.length
      exact Pair.failR (hfuel.resolve_right (by omega))
    | succ fB =>
      have hb1 := H.readyS.pos
      have h1 := D.cached.corr.len_v
      have h2 := D.cached.corr.len_w
      have hu := hpar.u
      have hv := hpar.v
      have hw := hpar.w
      unfold runSenderLoop runReceiverLoop
      rw [if_pos (by omega), if_pos (by omega), VM.get_bind, VM.get_bind]
      by_cases hle : copied + s.sCached.u.length ≤ n
      · rw [if_pos (by omega), if_pos (by omega), VM.bind_assoc, setSeg_eq (by omega), VM.lift_ok_bind, VM.bind_assoc, setSeg_eq (by omega),
          VM.lift_ok_bind, VM.bind_assoc, VM.modify_bind, VM.pure_bind']
        rw [VM.bind_assoc, setSeg_eq (by omega), VM.lift_ok_bind, VM.bind_assoc, VM.modify_bind, VM.pure_bind']
        dsimp only
        have hp2 := hpar.seg D.cached hle (putIds a.ids copied s.sCached.ids) (putIds e.ids copied r.rCached.ids)
        have hD : Dir h (P (.err .internal wrongDims)) d { s with sCached := ⟨[], [], []⟩ } { r with rCached := { r.rCached with w := [], ids := [] } } :=
          ⟨⟨.nil d, D.cached.delta⟩, D.vole, D.mpfss, D.seeds⟩
        have hH : Shared h t v b { s with sCached := ⟨[], [], []⟩ } { r with rCached := { r.rCached with w := [], ids := [] } } :=
          ⟨H.cohS, H.cohR, ⟨H.readyS.1, H.readyS.2, H.readyS.3, H.readyS.4, H.readyS.5, H.readyS.6, H.readyS.7, H.readyS.8⟩,
            ⟨H.readyR.1, H.readyR.2, H.readyR.3, H.readyR.4, H.readyR.5, H.readyR.6, H.readyR.7, H.readyR.8⟩, H.code, H.log⟩
        have f1' : SFrame s0 { s with sCached := ⟨[], [], []⟩ } := ⟨f1.1, f1.2, f1.3, f1.4⟩
        have f2' : RFrame r0 { r with rCached := { r.rCached with w := [], ids := [] } } := ⟨f2.1, f2.2, f2.3, f2.4⟩
        rw [h2] at hp2 ⊢
        by_cases hlt : copied + s.sCached.u.length < n
        · rw [if_pos (by omega), if_pos (by omega), VM.get_bind, VM.get_bind]
          refine Pair.bind (runExpand_pair hN hP W hH hD) ?_
          rintro - s1 - r1 ⟨H1, D1, hlen, g1, g2, e1, e2⟩
          have hl1 : s1.sCached.u.length = b := by rw [hlen]; exact Nat.zero_add b
          exact ih hp2 (by omega) (hfuel.imp_right (by
            rw [hl1]
            exact need_step (by omega) (by omega) (by omega))) H1 D1 (f1'.trans g1) (f2'.trans g2) (e1.trans d1) (e2.trans d2)
        · rw [if_neg (by omega), if_neg (by omega)]
          exact ih hp2 (by omega) (hfuel.imp_right (need_last (by omega) (by omega))) hH hD f1' f2' d1 d2
      · rw [if_neg (by omega), if_neg (by omega), show (n : Int) - copied = ((n - copied : Nat) : Int) by omega]
        rw [VM.bind_assoc, getSenderCached_bind (by omega) (by omega), VM.bind_assoc, setTail_eq (by omega) (by rw [SRes.last_len]; omega),
          VM.lift_ok_bind, VM.bind_assoc, setTail_eq (by omega) (by simp [SRes.last]; omega), VM.lift_ok_bind, VM.pure_bind']
        rw [VM.bind_assoc, getReceiverCached_bind (by omega), VM.bind_assoc, setTail_eq (by omega) (by simp [RRes.last]; omega),
          VM.lift_ok_bind, VM.pure_bind']
        dsimp only
        rw [Int.toNat_natCast, if_neg (by omega), if_neg (by omega)]
        have hp2 := hpar.tail (D.cached.last (n - copied)) (by rw [SRes.last_len (by omega)]; omega)
          (putIds a.ids copied (s.sCached.last (n - copied)).ids) (putIds e.ids copied (r.rCached.last (n - copied)).ids)
        rw [show a.u.length - (n - copied) = copied by omega, show a.v.length - (n - copied) = copied by omega,
          show e.w.length - (n - copied) = copied by omega]
        refine ih hp2 (Nat.le_refl _) (hfuel.imp_right (need_last (by omega) (by omega))) ?_ ?_ ⟨f1.1, f1.2, f1.3, f1.4⟩ ⟨f2.1, f2.2, f2.3, f2.4⟩ d1 d2
        · exact ⟨H.cohS, H.cohR, ⟨H.readyS.1, H.readyS.2, H.readyS.3, H.readyS.4, H.readyS.5, H.readyS.6, H.readyS.7, H.readyS.8⟩,
            ⟨H.readyR.1, H.readyR.2, H.readyR.3, H.readyR.4, H.readyR.5, H.readyR.6, H.readyR.7, H.readyR.8⟩, H.code, H.log⟩
        · exact ⟨D.cached.rest _, D.vole, D.mpfss, D.seeds⟩

theorem rest_pair {M N : Nat} (hN : 10616092 ≤ N) (hP : ∀ o, Expected o → ¬ (SmoothTo M N h A ∧ SmoothTo M N h B) → P o) (W : Together h A B) {d : T} {t v b n : Nat} {s r : VState T}
    (hfuel : P .diverge ∨ n + 2 ≤ A.fuel ∧ n + 2 ≤ B.fuel)
    (H : Shared h t v b s r) (D : Dir h (P (.err .internal wrongDims)) d s r) :
    Pair P (senderRest A n s) (receiverRest B n r) (RunPost h (P (.err .internal wrongDims)) d t v b n s r) := by
  have h1 := D.cached.corr.len_v
  have h2 := D.cached.corr.len_w
  unfold senderRest receiverRest
  rw [VM.get_bind, VM.get_bind]
  by_cases hle : n ≤ s.sCached.u.length
  · rw [getSender_eq hle (by omega), getReceiver_eq (by omega)]
    dsimp only
    rw [VM.modify_bind, VM.modify_bind]
    refine Pair.ret ⟨D.cached.last n, SRes.last_len hle, ?_, ?_, ⟨rfl, rfl, rfl, rfl⟩, ⟨rfl, rfl, rfl, rfl⟩, rfl, rfl⟩
    · exact ⟨H.cohS, H.cohR, ⟨H.readyS.1, H.readyS.2, H.readyS.3, H.readyS.4, H.readyS.5, H.readyS.6, H.readyS.7, H.readyS.8⟩,
        ⟨H.readyR.1, H.readyR.2, H.readyR.3, H.readyR.4, H.readyR.5, H.readyR.6, H.readyR.7, H.readyR.8⟩, H.code, H.log⟩
    · exact ⟨D.cached.rest _, D.vole, D.mpfss, D.seeds⟩
  · have e1 : getSender s.sCached (n : Int) = .err .outOfRange "Requested cached sender elements" := by
      unfold getSender; rw [if_pos (by omega)]
    have e2 : getReceiver r.rCached (n : Int) = .err .outOfRange "Requested cached receiver elements" := by
      unfold getReceiver; rw [if_pos (by omega)]
    rw [e1, e2]
    dsimp only
    rw [VM.draw_bind, vecOf_eq, VM.lift_ok_bind, VM.draw_bind, vecOf_eq, VM.lift_ok_bind]
    rw [VM.draw_bind, vecOf_eq, VM.lift_ok_bind]
    dsimp only
    refine runLoop_pair hN hP W _ ⟨by simp, by simp, by simp, D.cached.delta, by simpa using Correlated.nil d⟩ (Nat.zero_le _)
      (hfuel.imp_right (by unfold need; split <;> [omega; (split <;> omega)])) ?_ ?_
      ⟨rfl, rfl, rfl, rfl⟩ ⟨rfl, rfl, rfl, rfl⟩ rfl rfl
    · exact ⟨H.cohS, H.cohR, ⟨H.readyS.1, H.readyS.2, H.readyS.3, H.readyS.4, H.readyS.5, H.readyS.6, H.readyS.7, H.readyS.8⟩,
        ⟨H.readyR.1, H.readyR.2, H.readyR.3, H.readyR.4, H.readyR.5, H.readyR.6, H.readyR.7, H.readyR.8⟩, H.code, H.log⟩
    · exact ⟨D.cached, D.vole, D.mpfss, D.seeds⟩

theorem Fresh.shared {d : T} {batch : Int} {s r : VState T} (F : Fresh h d batch s r) : ∃ t v b, Shared h t v b s r := by
  obtain ⟨t, v, b, h1, h2, -⟩ := F.ready
  exact ⟨t, v, b, F.cohS, F.cohR, h1, h2, F.code, F.log⟩

theorem Fresh.dir {d : T} {batch : Int} {s r : VState T} (F : Fresh h d batch s r) (Q : Prop) : Dir h Q d s r := by
  obtain ⟨t, v, b, h1, h2, h3, h4, -⟩ := F.ready
  obtain ⟨i, hi⟩ := h1.row
  exact ⟨F.cached, F.vole, F.mpfss, i, t, v, hi, h3, h4, .inr h1.vole⟩

end DVO.VOLE
