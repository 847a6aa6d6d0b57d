/-
Reasoning about two parties whose programs may fail: either both succeed jointly, or one of them
stops with an error.
-/
import Verif.Model.VOLE

namespace DVO.Net
variable {M S S' α β γ δ : Type}

/-- An outcome in `P` that is neither success nor undefined behaviour. -/
def Bad (P : Out Unit → Prop) : Out α → Prop
  | .err c m => P (.err c m)
  | .throws m => P (.throws m)
  | .diverge => P .diverge
  | _ => False

/-- In some interleaving one of the parties stops with a bad outcome. -/
def Fails (P : Out Unit → Prop) (p : Proc M (Out α × S)) (q : Proc M (Out β × S')) : Prop :=
  ∃ n s, Steps n (init p q) s ∧ ((∃ o t, s.p = .ret (o, t) ∧ Bad P o) ∨ (∃ o t, s.q = .ret (o, t) ∧ Bad P o))

/-- Both parties succeed, with results satisfying `Post`, or one of them fails. -/
def Pair (P : Out Unit → Prop) (p : Proc M (Out α × S)) (q : Proc M (Out β × S')) (Post : α → S → β → S' → Prop) : Prop :=
  (∃ a s b t va vb, Joint p q (.ok a, s) (.ok b, t) va vb ∧ Post a s b t) ∨ Fails P p q

variable {P : Out Unit → Prop}

theorem Pair.mono {p : Proc M (Out α × S)} {q : Proc M (Out β × S')} {Post Post' : α → S → β → S' → Prop}
    (h : Pair P p q Post) (hi : ∀ a s b t, Post a s b t → Post' a s b t) : Pair P p q Post' := by
  rcases h with ⟨a, s, b, t, va, vb, h1, h2⟩ | h
  · exact .inl ⟨a, s, b, t, va, vb, h1, hi _ _ _ _ h2⟩
  · exact .inr h

theorem Bad.mono {P Q : Out Unit → Prop} (h : ∀ o, P o → Q o) {o : Out α} (hb : Bad P o) : Bad Q o := by
  cases o <;> first | exact h _ hb | exact hb

theorem Fails.mono {P Q : Out Unit → Prop} (h : ∀ o, P o → Q o) {p : Proc M (Out α × S)} {q : Proc M (Out β × S')}
    (hb : Fails P p q) : Fails Q p q := by
  obtain ⟨n, s, h1, h2⟩ := hb
  refine ⟨n, s, h1, ?_⟩
  rcases h2 with ⟨o, t, e, hb⟩ | ⟨o, t, e, hb⟩
  · exact .inl ⟨o, t, e, hb.mono h⟩
  · exact .inr ⟨o, t, e, hb.mono h⟩

theorem Pair.ret {a : α} {s : S} {b : β} {t : S'} {Post : α → S → β → S' → Prop} (h : Post a s b t) :
    Pair P (.ret (.ok a, s) : Proc M _) (.ret (.ok b, t)) Post := .inl ⟨a, s, b, t, _, _, Joint.ret _ _, h⟩

theorem Pair.failL {o : Out α} {s : S} {q : Proc M (Out β × S')} {Post : α → S → β → S' → Prop} (h : Bad P o) :
    Pair P (.ret (o, s) : Proc M _) q Post := .inr ⟨0, _, .zero _, .inl ⟨o, s, rfl, h⟩⟩

theorem Pair.failR {o : Out β} {t : S'} {p : Proc M (Out α × S)} {Post : α → S → β → S' → Prop} (h : Bad P o) :
    Pair P p (.ret (o, t) : Proc M _) Post := .inr ⟨0, _, .zero _, .inr ⟨o, t, rfl, h⟩⟩

theorem Fails.head {p p' : Proc M (Out α × S)} {q q' : Proc M (Out β × S')} {v w : List (Event M)} {n : Nat}
    (h1 : Steps n (init p q) ((init p' q').pre v w)) (h2 : Fails P p' q') : Fails P p q := by
  obtain ⟨m, s, h3, h4⟩ := h2
  exact ⟨n + m, s.pre v w, h1.trans (h3.pre v w), h4⟩

theorem Pair.head {p p' : Proc M (Out α × S)} {q q' : Proc M (Out β × S')} {v w : List (Event M)} {n : Nat}
    {Post : α → S → β → S' → Prop}
    (h1 : Steps n (init p q) ((init p' q').pre v w)) (h2 : Pair P p' q' Post) : Pair P p q Post := by
  rcases h2 with ⟨a, s, b, t, va, vb, h3, h4⟩ | h
  · exact .inl ⟨a, s, b, t, _, _, Joint.head h1 rfl h3, h4⟩
  · exact .inr (h.head h1)

theorem Pair.sendRecv {ch : Nat} {m : M} {k : Proc M (Out α × S)} {k' : M → Proc M (Out β × S')} {Post : α → S → β → S' → Prop}
    (h : Pair P k (k' m) Post) : Pair P (.send ch m k) (.recv ch k') Post := by
  refine Pair.head (n := 2) (v := [.sent ch m]) (w := [.rcvd ch m]) ?_ h
  have : Steps (M := M) 2 (init (.send ch m k) (.recv ch k')) _ :=
    Steps.succ (.pSend ..) (Steps.succ (.qRecv _ m [] _ _ _ _ _ _ (by simp)) (.zero _))
  simpa [Net.pre, init] using this

theorem Fails.swap {p : Proc M (Out α × S)} {q : Proc M (Out β × S')} (h : Fails P p q) : Fails P q p := by
  obtain ⟨n, s, h1, h2⟩ := h
  have key : ∀ n (s t : Net M (Out α × S) (Out β × S')), Steps n s t → Steps n s.swap t.swap := by
    intro n s t h
    induction h with
    | zero => exact .zero _
    | succ h1 _ ih => exact .succ h1.swap ih
  exact ⟨n, s.swap, key _ _ _ h1, h2.symm⟩

theorem Pair.swap {p : Proc M (Out α × S)} {q : Proc M (Out β × S')} {Post : β → S' → α → S → Prop}
    (h : Pair P q p Post) : Pair P p q (fun a s b t => Post b t a s) := by
  rcases h with ⟨a, s, b, t, va, vb, h1, h2⟩ | h
  · exact .inl ⟨b, t, a, s, _, _, h1.swap, h2⟩
  · exact .inr h.swap

theorem Pair.recvSend {ch : Nat} {m : M} {k : M → Proc M (Out α × S)} {k' : Proc M (Out β × S')} {Post : α → S → β → S' → Prop}
    (h : Pair P (k m) k' Post) : Pair P (.recv ch k) (.send ch m k') Post :=
  (Pair.sendRecv (Post := fun b t a s => Post a s b t) (h.swap (Post := Post))).swap

/-! ### What a pair does in any interleaving -/

theorem steps_ret_left {n : Nat} {s s' : Net M α β} (hs : Steps n s s') {r : α} (hp : s.p = .ret r) : s'.p = .ret r := by
  induction hs with
  | zero => exact hp
  | succ h1 _ ih =>
    refine ih ?_
    cases h1 <;> first | exact hp | (simp only at hp; cases hp)

theorem steps_ret_right' {n : Nat} {s s' : Net M α β} (hs : Steps n s s') {r : β} (hq : s.q = .ret r) : s'.q = .ret r := by
  induction hs with
  | zero => exact hq
  | succ h1 _ ih =>
    refine ih ?_
    cases h1 <;> first | exact hq | (simp only at hq; cases hq)

/-- If one party fails in some interleaving, no interleaving ends well for both. -/
theorem Fails.outcome {p : Proc M (Out α × S)} {q : Proc M (Out β × S')} (h : Fails P p q) {o : Out α} {s : S} {o' : Out β} {t : S'}
    {va vb : List (Event M)} (hj : Joint p q (o, s) (o', t) va vb) : Bad P o ∨ Bad P o' := by
  obtain ⟨n, st, h1, h2⟩ := h
  obtain ⟨m, hm⟩ := hj.computes
  have h3 := (hm n st h1).2
  rcases h2 with ⟨o1, t1, e, hb⟩ | ⟨o1, t1, e, hb⟩
  · left
    have := steps_ret_left h3 e
    simp only [final, Proc.ret.injEq, Prod.mk.injEq] at this
    rw [this.1]; exact hb
  · right
    have := steps_ret_right' h3 e
    simp only [final, Proc.ret.injEq, Prod.mk.injEq] at this
    rw [this.1]; exact hb

/-- The outcome of a pair in any interleaving in which both return. -/
theorem Pair.outcome {p : Proc M (Out α × S)} {q : Proc M (Out β × S')} {Post : α → S → β → S' → Prop} (h : Pair P p q Post)
    {o : Out α} {s : S} {o' : Out β} {t : S'} {va vb : List (Event M)} (hj : Joint p q (o, s) (o', t) va vb) :
    (∃ a b, o = .ok a ∧ o' = .ok b ∧ Post a s b t) ∨ Bad P o ∨ Bad P o' := by
  rcases h with ⟨a, s1, b, t1, va1, vb1, h1, h2⟩ | h
  · obtain ⟨e1, e2, -, -⟩ := hj.unique h1
    simp only [Prod.mk.injEq] at e1 e2
    obtain ⟨rfl, rfl⟩ := e1
    obtain ⟨rfl, rfl⟩ := e2
    exact .inl ⟨a, b, rfl, rfl, h2⟩
  · exact .inr (h.outcome hj)

end DVO.Net

namespace DVO.VOLE
open Net
variable {T α β γ δ : Type} {P : Out Unit → Prop}

theorem VM.bind_apply (x : VM T α) (f : α → VM T β) (s : VState T) : (x >>= f) s = Proc.bind (x s) (VM.next f) := rfl

@[simp] theorem VM.pure_apply (a : α) (s : VState T) : (pure a : VM T α) s = .ret (.ok a, s) := rfl
@[simp] theorem VM.pure_bind' (a : α) (f : α → VM T β) (s : VState T) : ((pure a : VM T α) >>= f) s = f a s := rfl
@[simp] theorem VM.get_bind (f : VState T → VM T β) (s : VState T) : (VM.get >>= f) s = f s s := rfl
@[simp] theorem VM.modify_bind (g : VState T → VState T) (f : Unit → VM T β) (s : VState T) :
    (VM.modify g >>= f) s = f () (g s) := rfl
@[simp] theorem VM.modify_apply (g : VState T → VState T) (s : VState T) : VM.modify g s = .ret (.ok (), g s) := rfl
@[simp] theorem VM.lift_ok_bind (a : α) (f : α → VM T β) (s : VState T) : (VM.lift (.ok a) >>= f) s = f a s := rfl
@[simp] theorem VM.lift_apply (x : Out α) (s : VState T) : (VM.lift x : VM T α) s = .ret (x, s) := rfl
@[simp] theorem VM.draw_bind (E : Env T) (f : Rand T → VM T β) (s : VState T) :
    (VM.draw E >>= f) s = f (E.rand s.pos) { s with pos := s.pos + 1 } := rfl
theorem VM.run_send_bind (ch : Nat) (m : Msg T) (f : Unit → VM T β) (s : VState T) :
    (VM.run (PM.send ch m) >>= f) s = .send ch m (f () s) := rfl
theorem VM.run_recv_bind (ch : Nat) (f : Msg T → VM T β) (s : VState T) :
    (VM.run (PM.recv ch) >>= f) s = .recv ch (fun m => f m s) := rfl

theorem VM.bind_assoc (x : VM T α) (f : α → VM T β) (g : β → VM T γ) : ((x >>= f) >>= g) = (x >>= fun a => f a >>= g) := by
  funext s
  show Proc.bind (Proc.bind (x s) (VM.next f)) (VM.next g) = Proc.bind (x s) (VM.next fun a => f a >>= g)
  rw [Proc.bind_assoc']
  congr 1
  funext r
  obtain ⟨o, s'⟩ := r
  cases o <;> rfl

instance : LawfulMonad (VM T) := LawfulMonad.mk' _
  (by
    intro α x
    funext s
    show Proc.bind (x s) (VM.next fun a => pure (id a)) = x s
    refine Eq.trans ?_ (Proc.bind_ret' (x s))
    congr 1
    funext r
    obtain ⟨o, s'⟩ := r
    cases o <;> rfl)
  (by intros; rfl)
  (by intro α β γ x f g; exact VM.bind_assoc x f g)

/-- A local computation either yields a result, or fails. -/
theorem Bad.next {o : Out α} (h : Bad P o) (f : α → VM T β) (s : VState T) :
    ∃ o' : Out β, VM.next f (o, s) = .ret (o', s) ∧ Bad P o' := by
  cases o with
  | ok a => exact absurd h id
  | ub w => exact absurd h id
  | err c m => exact ⟨_, rfl, h⟩
  | throws m => exact ⟨_, rfl, h⟩
  | diverge => exact ⟨_, rfl, h⟩

theorem Fails.bind {x : VM T α} {y : VM T β} {s t : VState T} (h : Fails P (x s) (y t)) (f : α → VM T γ) (g : β → VM T δ) :
    Fails P ((x >>= f) s) ((y >>= g) t) := by
  obtain ⟨n, st, h1, h2⟩ := h
  refine ⟨n, st.lift (VM.next f) (VM.next g), h1.lift _ _, ?_⟩
  rcases h2 with ⟨o, r, e, hb⟩ | ⟨o, r, e, hb⟩
  · obtain ⟨o', e2, hb2⟩ := Bad.next hb f r
    exact .inl ⟨o', r, by simp only [Net.lift, e]; exact e2, hb2⟩
  · obtain ⟨o', e2, hb2⟩ := Bad.next hb g r
    exact .inr ⟨o', r, by simp only [Net.lift, e]; exact e2, hb2⟩

theorem Pair.bind {x : VM T α} {y : VM T β} {s t : VState T} {f : α → VM T γ} {g : β → VM T δ}
    {Mid : α → VState T → β → VState T → Prop} {Post : γ → VState T → δ → VState T → Prop}
    (h : Pair P (x s) (y t) Mid) (hk : ∀ a s' b t', Mid a s' b t' → Pair P (f a s') (g b t') Post) :
    Pair P ((x >>= f) s) ((y >>= g) t) Post := by
  rcases h with ⟨a, s', b, t', va, vb, h1, h2⟩ | h
  · rcases hk a s' b t' h2 with ⟨c, s'', d, t'', vc, vd, h3, h4⟩ | ⟨n, st, h3, h4⟩
    · exact .inl ⟨c, s'', d, t'', _, _, Joint.bind h1 h3, h4⟩
    · right
      obtain ⟨m, hm⟩ := h1
      have e : Steps m (init ((x >>= f) s) ((y >>= g) t)) ((init (f a s') (g b t')).pre va vb) := by
        have := hm.lift (VM.next f) (VM.next g)
        rw [VM.bind_apply, VM.bind_apply]
        simpa [Net.pre, init, final, Net.lift, Proc.bind, VM.next] using this
      exact Fails.head e ⟨n, st, h3, h4⟩
  · exact .inr (Fails.bind h f g)

theorem Pair.liftL {x : Out α} {f : α → VM T γ} {q : Proc (Msg T) (Out δ × VState T)} {s : VState T}
    {Post : γ → VState T → δ → VState T → Prop} (h : ∀ a, x = .ok a → Pair P (f a s) q Post) (hb : (∃ a, x = .ok a) ∨ Bad P x) :
    Pair P ((VM.lift x >>= f) s) q Post := by
  rcases hb with ⟨a, rfl⟩ | hb
  · exact h a rfl
  · obtain ⟨o', e, hb2⟩ := Bad.next hb f s
    rw [VM.bind_apply]
    show Pair P (VM.next f (x, s)) q Post
    rw [e]
    exact Pair.failL hb2

theorem Pair.liftR {x : Out β} {g : β → VM T δ} {p : Proc (Msg T) (Out γ × VState T)} {t : VState T}
    {Post : γ → VState T → δ → VState T → Prop} (h : ∀ a, x = .ok a → Pair P p (g a t) Post) (hb : (∃ a, x = .ok a) ∨ Bad P x) :
    Pair P p ((VM.lift x >>= g) t) Post := by
  rcases hb with ⟨a, rfl⟩ | hb
  · exact h a rfl
  · obtain ⟨o', e, hb2⟩ := Bad.next hb g t
    rw [VM.bind_apply]
    show Pair P p (VM.next g (x, t)) Post
    rw [e]
    exact Pair.failR hb2

end DVO.VOLE
