/-
Two-party programs that communicate over FIFO channels and an ideal oblivious transfer, and their
small-step semantics under arbitrary interleaving.
-/
import Verif.Model.GGM
import Mathlib.Logic.Relation
import Mathlib.Logic.Function.Basic

namespace DVO

/-- Which OT functionality of `emp::SHOTExtension` is called: `send`/`recv`
    (all_but_one_random_ot.h:217, gilboa_internal.h:143) or `send_cot_ft`/`recv_cot`
    (gilboa_internal.h:112, scalar_vector_gilboa_product.h:109). -/
inductive OTKind
  | ot
  | cot
deriving DecidableEq, Repr

/-- A party: a sequential program that sends and receives messages on numbered channels and takes
    part in oblivious transfers.
    * `send`/`recv` stand for `comm_channel::send/recv/sync`-style messages and
      `CommChannelEMPAdapter::send_data/recv_data`.
    * `otSend c k ms`/`otRecv c k cs` stand for a whole call of the OT extension over channel `c`:
      the ideal functionality, in which the receiver obtains `m0` or `m1` for each choice bit.
      In the correlated variant `m0` is chosen by the functionality; it is part of the sender's
      randomness here.
    (Used in all_but_one_random_ot.h:220, 223; all_but_one_random_ot.cpp:94, 99;
    internal/gilboa_internal.h:112, 145; scalar_vector_gilboa_product.h:109, 111;
    spfss_known_index.h:127, 160; mpfss_known_indices.h:152, 227; distributed_vector_ole.h:257, 317,
    374, 377.) -/
inductive Proc (M : Type) (α : Type)
  | ret (a : α)
  | send (ch : Nat) (m : M) (k : Proc M α)
  | recv (ch : Nat) (k : M → Proc M α)
  | otSend (ch : Nat) (kind : OTKind) (ms : List (Block × Block)) (k : Proc M α)
  | otRecv (ch : Nat) (kind : OTKind) (cs : List Bool) (k : List Block → Proc M α)

/-- What a party observes. (The data passed at the places listed at `Proc`, e.g. spfss_known_index.h:127, 160.) -/
inductive Event (M : Type)
  | sent (ch : Nat) (m : M)
  | rcvd (ch : Nat) (m : M)
  | otSent (ch : Nat) (ms : List (Block × Block))
  | otRcvd (ch : Nat) (cs : List Bool) (res : List Block)

namespace Proc
variable {M α β γ : Type}

/-- One program after the other (`;` in C++, e.g. spfss_known_index.h:110-127). -/
protected def bind : Proc M α → (α → Proc M β) → Proc M β
  | ret a, f => f a
  | send ch m k, f => send ch m (k.bind f)
  | recv ch k, f => recv ch (fun m => (k m).bind f)
  | otSend ch kd ms k, f => otSend ch kd ms (k.bind f)
  | otRecv ch kd cs k, f => otRecv ch kd cs (fun r => (k r).bind f)

/-- Sequencing (`;` in C++, e.g. spfss_known_index.h:110-127). -/
instance : Monad (Proc M) where
  pure := ret
  bind := Proc.bind

theorem bind_assoc' (p : Proc M α) (f : α → Proc M β) (g : β → Proc M γ) :
    (p.bind f).bind g = p.bind (fun a => (f a).bind g) := by
  induction p with
  | ret a => rfl
  | send ch m k ih => simp [Proc.bind, ih]
  | recv ch k ih => simp only [Proc.bind]; congr 1; funext m; exact ih m
  | otSend ch kd ms k ih => simp [Proc.bind, ih]
  | otRecv ch kd cs k ih => simp only [Proc.bind]; congr 1; funext m; exact ih m

theorem bind_ret' (p : Proc M α) : p.bind ret = p := by
  induction p with
  | ret a => rfl
  | send ch m k ih => simp [Proc.bind, ih]
  | recv ch k ih => simp only [Proc.bind]; congr 1; funext m; exact ih m
  | otSend ch kd ms k ih => simp [Proc.bind, ih]
  | otRecv ch kd cs k ih => simp only [Proc.bind]; congr 1; funext m; exact ih m

end Proc

/-- The result of an ideal OT.
    (What `ot_extension_.recv` writes, all_but_one_random_ot.cpp:94; scalar_vector_gilboa_product.h:109,
    111.) -/
def otResult (ms : List (Block × Block)) (cs : List Bool) : List Block :=
  List.zipWith (fun m c => if c then m.2 else m.1) ms cs

/-- Two parties and the messages in flight (`pq c`: sent by the first, not yet received by the
    second, on channel `c`), together with what each party has seen so far.
    (No code in the repository: the connection behind `channel_`, e.g. spfss_known_index.h:127, 160.) -/
structure Net (M α β : Type) where
  p : Proc M α
  q : Proc M β
  pq : Nat → List M
  qp : Nat → List M
  pv : List (Event M)
  qv : List (Event M)

namespace Net
variable {M α β γ δ : Type}

/-- One step of either party, or one OT. An OT needs both parties at it, the same kind and number
    of transfers, and nothing else in flight on the channel it runs over.
    (No code in the repository: the network behind `channel_`, e.g. spfss_known_index.h:127, 160.) -/
inductive Step : Net M α β → Net M α β → Prop
  | pSend (ch m k q pq qp pv qv) :
      Step ⟨.send ch m k, q, pq, qp, pv, qv⟩
        ⟨k, q, Function.update pq ch (pq ch ++ [m]), qp, pv ++ [.sent ch m], qv⟩
  | qSend (ch m k p pq qp pv qv) :
      Step ⟨p, .send ch m k, pq, qp, pv, qv⟩
        ⟨p, k, pq, Function.update qp ch (qp ch ++ [m]), pv, qv ++ [.sent ch m]⟩
  | pRecv (ch m ms k q pq qp pv qv) (h : qp ch = m :: ms) :
      Step ⟨.recv ch k, q, pq, qp, pv, qv⟩
        ⟨k m, q, pq, Function.update qp ch ms, pv ++ [.rcvd ch m], qv⟩
  | qRecv (ch m ms k p pq qp pv qv) (h : pq ch = m :: ms) :
      Step ⟨p, .recv ch k, pq, qp, pv, qv⟩
        ⟨p, k m, Function.update pq ch ms, qp, pv, qv ++ [.rcvd ch m]⟩
  | otPQ (ch kd ms cs kp kq pq qp pv qv) (h : ms.length = cs.length) (h1 : pq ch = []) (h2 : qp ch = []) :
      Step ⟨.otSend ch kd ms kp, .otRecv ch kd cs kq, pq, qp, pv, qv⟩
        ⟨kp, kq (otResult ms cs), pq, qp, pv ++ [.otSent ch ms], qv ++ [.otRcvd ch cs (otResult ms cs)]⟩
  | otQP (ch kd ms cs kp kq pq qp pv qv) (h : ms.length = cs.length) (h1 : pq ch = []) (h2 : qp ch = []) :
      Step ⟨.otRecv ch kd cs kp, .otSend ch kd ms kq, pq, qp, pv, qv⟩
        ⟨kp (otResult ms cs), kq, pq, qp, pv ++ [.otRcvd ch cs (otResult ms cs)], qv ++ [.otSent ch ms]⟩

/-- `n` steps.
    (No code in the repository: the network behind `channel_`, e.g. spfss_known_index.h:127, 160.) -/
inductive Steps : Nat → Net M α β → Net M α β → Prop
  | zero (s) : Steps 0 s s
  | succ {n s t u} : Step s t → Steps n t u → Steps (n + 1) s u

/-- Both programs at their start, nothing in flight, nothing seen.
    (Part of the network model, not of the code; see `Proc` for the places, e.g. spfss_known_index.h:127, 160.) -/
def init (p : Proc M α) (q : Proc M β) : Net M α β := ⟨p, q, fun _ => [], fun _ => [], [], []⟩

/-- Both parties have returned and every message sent has been received.
    (Part of the network model, not of the code; see `Proc` for the places, e.g. spfss_known_index.h:127, 160.) -/
def final (a : α) (b : β) (va vb : List (Event M)) : Net M α β :=
  ⟨.ret a, .ret b, fun _ => [], fun _ => [], va, vb⟩

/-- Running `p` against `q`: *every* interleaving terminates, with `p` returning `a` and `q`
    returning `b`, views `va` and `vb`, and no message left over: whatever `k` steps have been made,
    exactly `n - k` more lead to that outcome.
    (Part of the network model, not of the code; see `Proc` for the places, e.g. spfss_known_index.h:127, 160.) -/
def Computes (p : Proc M α) (q : Proc M β) (a : α) (b : β) (va vb : List (Event M)) : Prop :=
  ∃ n, ∀ k s, Steps k (init p q) s → k ≤ n ∧ Steps (n - k) s (final a b va vb)

/-- Some interleaving leads to that outcome.
    (Part of the network model, not of the code; see `Proc` for the places, e.g. spfss_known_index.h:127, 160.) -/
def Joint (p : Proc M α) (q : Proc M β) (a : α) (b : β) (va vb : List (Event M)) : Prop :=
  ∃ n, Steps n (init p q) (final a b va vb)

/-- No step is possible although not both parties have returned.
    (Part of the network model, not of the code; see `Proc` for the places, e.g. spfss_known_index.h:127, 160.) -/
def Stuck (s : Net M α β) : Prop :=
  (∀ t, ¬ Step s t) ∧ ¬ ∃ a b, s.p = .ret a ∧ s.q = .ret b

/-! ### Confluence -/

theorem diamond {s t u : Net M α β} (h1 : Step s t) (h2 : Step s u) :
    t = u ∨ ∃ v, Step t v ∧ Step u v := by
  cases h1 with
  | pSend ch m k q pq qp pv qv =>
    cases h2 with
    | pSend => left; rfl
    | qSend ch' m' k' => right; exact ⟨_, .qSend .., .pSend ..⟩
    | qRecv ch' m' ms' k' p' _ _ _ _ h =>
      right
      by_cases e : ch' = ch
      · subst e
        refine ⟨_, Step.qRecv _ m' (ms' ++ [m]) _ _ _ _ _ _ (by simp [h]), ?_⟩
        have := Step.pSend (M := M) (α := α) ch' m k (k' m') (Function.update pq ch' ms') qp pv (qv ++ [.rcvd ch' m'])
        simpa using this
      · refine ⟨_, Step.qRecv _ m' ms' _ _ _ _ _ _ (by rw [Function.update_of_ne e]; exact h), ?_⟩
        have := Step.pSend (M := M) (α := α) ch m k (k' m') (Function.update pq ch' ms') qp pv (qv ++ [.rcvd ch' m'])
        rw [Function.update_of_ne (Ne.symm e)] at this
        rw [Function.update_comm e] at this
        exact this
  | qSend ch m k p pq qp pv qv =>
    cases h2 with
    | qSend => left; rfl
    | pSend ch' m' k' => right; exact ⟨_, .pSend .., .qSend ..⟩
    | pRecv ch' m' ms' k' p' _ _ _ _ h =>
      right
      by_cases e : ch' = ch
      · subst e
        refine ⟨_, Step.pRecv _ m' (ms' ++ [m]) _ _ _ _ _ _ (by simp [h]), ?_⟩
        have := Step.qSend (M := M) (β := β) ch' m k (k' m') pq (Function.update qp ch' ms') (pv ++ [.rcvd ch' m']) qv
        simpa using this
      · refine ⟨_, Step.pRecv _ m' ms' _ _ _ _ _ _ (by rw [Function.update_of_ne e]; exact h), ?_⟩
        have := Step.qSend (M := M) (β := β) ch m k (k' m') pq (Function.update qp ch' ms') (pv ++ [.rcvd ch' m']) qv
        rw [Function.update_of_ne (Ne.symm e)] at this
        rw [Function.update_comm e] at this
        exact this
  | pRecv ch m ms k q pq qp pv qv h =>
    cases h2 with
    | pRecv _ m' ms' _ _ _ _ _ _ h' =>
      left; rw [h] at h'; injection h' with e1 e2; subst e1; subst e2; rfl
    | qSend ch' m' k' =>
      right
      by_cases e : ch = ch'
      · subst e
        refine ⟨_, ?_, Step.pRecv _ m (ms ++ [m']) _ _ _ _ _ _ (by simp [h])⟩
        have := Step.qSend (M := M) (β := β) ch m' k' (k m) pq (Function.update qp ch ms) (pv ++ [.rcvd ch m]) qv
        simpa using this
      · refine ⟨_, ?_, Step.pRecv _ m ms _ _ _ _ _ _ (by rw [Function.update_of_ne e]; exact h)⟩
        have := Step.qSend (M := M) (β := β) ch' m' k' (k m) pq (Function.update qp ch ms) (pv ++ [.rcvd ch m]) qv
        rw [Function.update_of_ne (Ne.symm e)] at this
        rw [Function.update_comm e] at this
        exact this
    | qRecv ch' m' ms' k' _ _ _ _ _ h' =>
      right; exact ⟨_, .qRecv _ _ _ _ _ _ _ _ _ h', .pRecv _ _ _ _ _ _ _ _ _ h⟩
  | qRecv ch m ms k p pq qp pv qv h =>
    cases h2 with
    | qRecv _ m' ms' _ _ _ _ _ _ h' =>
      left; rw [h] at h'; injection h' with e1 e2; subst e1; subst e2; rfl
    | pSend ch' m' k' =>
      right
      by_cases e : ch = ch'
      · subst e
        refine ⟨_, ?_, Step.qRecv _ m (ms ++ [m']) _ _ _ _ _ _ (by simp [h])⟩
        have := Step.pSend (M := M) (α := α) ch m' k' (k m) (Function.update pq ch ms) qp pv (qv ++ [.rcvd ch m])
        simpa using this
      · refine ⟨_, ?_, Step.qRecv _ m ms _ _ _ _ _ _ (by rw [Function.update_of_ne e]; exact h)⟩
        have := Step.pSend (M := M) (α := α) ch' m' k' (k m) (Function.update pq ch ms) qp pv (qv ++ [.rcvd ch m])
        rw [Function.update_of_ne (Ne.symm e)] at this
        rw [Function.update_comm e] at this
        exact this
    | pRecv ch' m' ms' k' _ _ _ _ _ h' =>
      right; exact ⟨_, .pRecv _ _ _ _ _ _ _ _ _ h', .qRecv _ _ _ _ _ _ _ _ _ h⟩
  | otPQ => cases h2 with | otPQ => left; rfl
  | otQP => cases h2 with | otQP => left; rfl

theorem final_no_step {a : α} {b : β} {va vb : List (Event M)} {t} : ¬ Step (final a b va vb) t := by
  intro h; cases h

theorem steps_of_step {n : Nat} : ∀ {s t : Net M α β} {a : α} {b : β} {va vb},
    Steps n s (final a b va vb) → Step s t → 1 ≤ n ∧ Steps (n - 1) t (final a b va vb) := by
  induction n with
  | zero => intro s t a b va vb h hs; cases h; exact absurd hs final_no_step
  | succ n ih =>
    intro s t a b va vb h hs
    refine ⟨by omega, ?_⟩
    cases h with
    | succ h1 h2 =>
      rcases diamond h1 hs with e | ⟨v, h3, h4⟩
      · subst e; exact h2
      · obtain ⟨h5, h6⟩ := ih h2 h3
        cases n with
        | zero => omega
        | succ n => exact Steps.succ h4 h6

/-- If one interleaving finishes, all do, with the same result. -/
theorem Joint.computes {p : Proc M α} {q : Proc M β} {a b va vb} (h : Joint p q a b va vb) :
    Computes p q a b va vb := by
  obtain ⟨n, hn⟩ := h
  refine ⟨n, ?_⟩
  intro k
  have key : ∀ k n (s u : Net M α β), Steps n s (final a b va vb) → Steps k s u →
      k ≤ n ∧ Steps (n - k) u (final a b va vb) := by
    intro k
    induction k with
    | zero => intro n s u h1 h2; cases h2; exact ⟨by omega, h1⟩
    | succ k ih =>
      intro n s u h1 h2
      cases h2 with
      | succ h3 h4 =>
        obtain ⟨h5, h6⟩ := steps_of_step h1 h3
        obtain ⟨h7, h8⟩ := ih _ _ _ h6 h4
        exact ⟨by omega, by rw [show n - (k + 1) = n - 1 - k by omega]; exact h8⟩
  intro s hs
  exact key k n _ _ hn hs

/-- If one interleaving ends in a state without successors (e.g. a deadlock), all end there. -/
theorem normal_form {s nf : Net M α β} (hnf : ∀ t, ¬ Step nf t) : ∀ {n : Nat}, Steps n s nf →
    ∀ {k : Nat} {u : Net M α β}, Steps k s u → k ≤ n ∧ Steps (n - k) u nf := by
  have one : ∀ {n : Nat} {s t : Net M α β}, Steps n s nf → Step s t → 1 ≤ n ∧ Steps (n - 1) t nf := by
    intro n
    induction n with
    | zero => intro s t h hs; cases h; exact absurd hs (hnf _)
    | succ n ih =>
      intro s t h hs
      refine ⟨by omega, ?_⟩
      cases h with
      | succ h1 h2 =>
        rcases diamond h1 hs with e | ⟨v, h3, h4⟩
        · subst e; exact h2
        · obtain ⟨h5, h6⟩ := ih h2 h3
          cases n with
          | zero => omega
          | succ n => exact Steps.succ h4 h6
  intro n hn k
  induction k generalizing s n with
  | zero => intro u h2; cases h2; exact ⟨by omega, hn⟩
  | succ k ih =>
    intro u h2
    cases h2 with
    | succ h3 h4 =>
      obtain ⟨h5, h6⟩ := one hn h3
      obtain ⟨h7, h8⟩ := ih h6 h4
      exact ⟨by omega, by rw [show n - (k + 1) = n - 1 - k by omega]; exact h8⟩

theorem Computes.joint {p : Proc M α} {q : Proc M β} {a b va vb} (h : Computes p q a b va vb) :
    Joint p q a b va vb := by
  obtain ⟨n, hn⟩ := h
  exact ⟨n, by simpa using (hn 0 _ (.zero _)).2⟩

theorem steps_final {n : Nat} {a : α} {b : β} {va vb : List (Event M)} {t : Net M α β}
    (h : Steps n (final a b va vb) t) : t = final a b va vb := by
  cases h with
  | zero => rfl
  | succ h1 _ => exact absurd h1 final_no_step

/-- The outcome of a terminating pair of programs is unique. -/
theorem Joint.unique {p : Proc M α} {q : Proc M β} {a b va vb a' b' va' vb'}
    (h : Joint p q a b va vb) (h' : Joint p q a' b' va' vb') : a = a' ∧ b = b' ∧ va = va' ∧ vb = vb' := by
  obtain ⟨n, hn⟩ := h.computes
  obtain ⟨m, hm⟩ := h'
  have := steps_final (hn m _ hm).2
  simp only [final, Net.mk.injEq, Proc.ret.injEq] at this
  exact ⟨this.1, this.2.1, this.2.2.2.2.1, this.2.2.2.2.2⟩

/-! ### Composition -/

/-- Bind both programs, prepend to both views.
    (Part of the network model, not of the code; see `Proc` for the places, e.g. spfss_known_index.h:127, 160.) -/
def lift (f : α → Proc M γ) (g : β → Proc M δ) (s : Net M α β) : Net M γ δ :=
  ⟨s.p.bind f, s.q.bind g, s.pq, s.qp, s.pv, s.qv⟩

theorem Step.lift {s t : Net M α β} (f : α → Proc M γ) (g : β → Proc M δ) (h : Step s t) :
    Step (s.lift f g) (t.lift f g) := by
  cases h with
  | pSend => exact .pSend ..
  | qSend => exact .qSend ..
  | pRecv _ _ _ _ _ _ _ _ _ h => exact .pRecv _ _ _ _ _ _ _ _ _ h
  | qRecv _ _ _ _ _ _ _ _ _ h => exact .qRecv _ _ _ _ _ _ _ _ _ h
  | otPQ _ _ _ _ _ _ _ _ _ _ h h1 h2 => exact .otPQ _ _ _ _ _ _ _ _ _ _ h h1 h2
  | otQP _ _ _ _ _ _ _ _ _ _ h h1 h2 => exact .otQP _ _ _ _ _ _ _ _ _ _ h h1 h2

/-- Prepend to both views.
    (Part of the network model, not of the code; see `Proc` for the places, e.g. spfss_known_index.h:127, 160.) -/
def pre (va vb : List (Event M)) (s : Net M α β) : Net M α β :=
  { s with pv := va ++ s.pv, qv := vb ++ s.qv }

theorem Step.pre {s t : Net M α β} (va vb : List (Event M)) (h : Step s t) :
    Step (s.pre va vb) (t.pre va vb) := by
  cases h with
  | pSend => simp only [Net.pre, ← List.append_assoc]; exact .pSend ..
  | qSend => simp only [Net.pre, ← List.append_assoc]; exact .qSend ..
  | pRecv _ _ _ _ _ _ _ _ _ h => simp only [Net.pre, ← List.append_assoc]; exact .pRecv _ _ _ _ _ _ _ _ _ h
  | qRecv _ _ _ _ _ _ _ _ _ h => simp only [Net.pre, ← List.append_assoc]; exact .qRecv _ _ _ _ _ _ _ _ _ h
  | otPQ _ _ _ _ _ _ _ _ _ _ h h1 h2 =>
    simp only [Net.pre, ← List.append_assoc]; exact .otPQ _ _ _ _ _ _ _ _ _ _ h h1 h2
  | otQP _ _ _ _ _ _ _ _ _ _ h h1 h2 =>
    simp only [Net.pre, ← List.append_assoc]; exact .otQP _ _ _ _ _ _ _ _ _ _ h h1 h2

theorem Steps.lift {n : Nat} {s t : Net M α β} (f : α → Proc M γ) (g : β → Proc M δ)
    (h : Steps n s t) : Steps n (s.lift f g) (t.lift f g) := by
  induction h with
  | zero => exact .zero _
  | succ h1 _ ih => exact .succ (h1.lift f g) ih

theorem Steps.pre {n : Nat} {s t : Net M α β} (va vb : List (Event M)) (h : Steps n s t) :
    Steps n (s.pre va vb) (t.pre va vb) := by
  induction h with
  | zero => exact .zero _
  | succ h1 _ ih => exact .succ (h1.pre va vb) ih

theorem Steps.trans {n m : Nat} {s t u : Net M α β} (h1 : Steps n s t) (h2 : Steps m t u) :
    Steps (n + m) s u := by
  induction h1 with
  | zero => simpa using h2
  | succ h _ ih => rw [show ∀ n, n + 1 + m = (n + m) + 1 by intro n; omega]; exact .succ h (ih h2)

/-- Sequential composition of joint runs. -/
theorem Joint.bind {p : Proc M α} {q : Proc M β} {a b va vb} {f : α → Proc M γ} {g : β → Proc M δ}
    {c d vc vd} (h1 : Joint p q a b va vb) (h2 : Joint (f a) (g b) c d vc vd) :
    Joint (p.bind f) (q.bind g) c d (va ++ vc) (vb ++ vd) := by
  obtain ⟨n, hn⟩ := h1
  obtain ⟨m, hm⟩ := h2
  refine ⟨n + m, (hn.lift f g).trans ?_⟩
  have := hm.pre va vb
  simpa [Net.pre, init, final, Net.lift, Proc.bind] using this

theorem Joint.ret (a : α) (b : β) : Joint (.ret a : Proc M α) (.ret b) a b [] [] := ⟨0, .zero _⟩

theorem Joint.head {s : Net M α β} {p q} {a b va vb} {n : Nat}
    (h1 : Steps n (init p q) s) {p' : Proc M α} {q' : Proc M β} {v w : List (Event M)}
    (hs : s = (init p' q').pre v w) (h2 : Joint p' q' a b va vb) :
    Joint p q a b (v ++ va) (w ++ vb) := by
  obtain ⟨m, hm⟩ := h2
  refine ⟨n + m, h1.trans ?_⟩
  rw [hs]
  have := hm.pre v w
  simpa [Net.pre, final] using this

/-- First party sends, second receives. -/
theorem Joint.sendRecv {ch : Nat} {m : M} {k : Proc M α} {k' : M → Proc M β} {a b va vb}
    (h : Joint k (k' m) a b va vb) :
    Joint (.send ch m k) (.recv ch k') a b (.sent ch m :: va) (.rcvd ch m :: vb) := by
  refine Joint.head (n := 2) (v := [.sent ch m]) (w := [.rcvd ch m])
    (Steps.succ (.pSend ..) (Steps.succ (.qRecv _ m [] _ _ _ _ _ _ (by simp)) (.zero _))) ?_ h
  simp [Net.pre, init]

/-- Second party sends, first receives. -/
theorem Joint.recvSend {ch : Nat} {m : M} {k : M → Proc M α} {k' : Proc M β} {a b va vb}
    (h : Joint (k m) k' a b va vb) :
    Joint (.recv ch k) (.send ch m k') a b (.rcvd ch m :: va) (.sent ch m :: vb) := by
  refine Joint.head (n := 2) (v := [.rcvd ch m]) (w := [.sent ch m])
    (Steps.succ (.qSend ..) (Steps.succ (.pRecv _ m [] _ _ _ _ _ _ (by simp)) (.zero _))) ?_ h
  simp [Net.pre, init]

/-- Both parties send to each other and then receive. -/
theorem Joint.exchange {ch : Nat} {m m' : M} {k : M → Proc M α} {k' : M → Proc M β} {a b va vb}
    (h : Joint (k m') (k' m) a b va vb) :
    Joint (.send ch m (.recv ch k)) (.send ch m' (.recv ch k')) a b
      (.sent ch m :: .rcvd ch m' :: va) (.sent ch m' :: .rcvd ch m :: vb) := by
  refine Joint.head (n := 4) (v := [.sent ch m, .rcvd ch m']) (w := [.sent ch m', .rcvd ch m])
    (Steps.succ (.pSend ..) (Steps.succ (.qSend ..)
      (Steps.succ (.pRecv _ m' [] _ _ _ _ _ _ (by simp))
        (Steps.succ (.qRecv _ m [] _ _ _ _ _ _ (by simp)) (.zero _))))) ?_ h
  simp [Net.pre, init]

/-- OT with the first party as sender. -/
theorem Joint.otSR {ch : Nat} {kd : OTKind} {ms : List (Block × Block)} {cs : List Bool}
    {k : Proc M α} {k' : List Block → Proc M β} {a b va vb} (hl : ms.length = cs.length)
    (h : Joint k (k' (otResult ms cs)) a b va vb) :
    Joint (.otSend ch kd ms k) (.otRecv ch kd cs k') a b (.otSent ch ms :: va)
      (.otRcvd ch cs (otResult ms cs) :: vb) := by
  refine Joint.head (n := 1) (v := [.otSent ch ms]) (w := [.otRcvd ch cs (otResult ms cs)])
    (Steps.succ (.otPQ _ _ _ _ _ _ _ _ _ _ hl rfl rfl) (.zero _)) ?_ h
  simp [Net.pre, init]

/-- OT with the second party as sender. -/
theorem Joint.otRS {ch : Nat} {kd : OTKind} {ms : List (Block × Block)} {cs : List Bool}
    {k : List Block → Proc M α} {k' : Proc M β} {a b va vb} (hl : ms.length = cs.length)
    (h : Joint (k (otResult ms cs)) k' a b va vb) :
    Joint (.otRecv ch kd cs k) (.otSend ch kd ms k') a b
      (.otRcvd ch cs (otResult ms cs) :: va) (.otSent ch ms :: vb) := by
  refine Joint.head (n := 1) (w := [.otSent ch ms]) (v := [.otRcvd ch cs (otResult ms cs)])
    (Steps.succ (.otQP _ _ _ _ _ _ _ _ _ _ hl rfl rfl) (.zero _)) ?_ h
  simp [Net.pre, init]

/-! ### Programs that receive nothing -/

/-- `p` receives nothing (not even as OT receiver): it produces the events `v` and returns `a`.
    (Part of the network model, not of the code; see `Proc` for the places, e.g. spfss_known_index.h:127, 160.) -/
inductive Straight : Proc M α → List (Event M) → α → Prop
  | ret (a) : Straight (.ret a) [] a
  | send (ch m k v a) : Straight k v a → Straight (.send ch m k) (.sent ch m :: v) a
  | otSend (ch kd ms k v a) : Straight k v a → Straight (.otSend ch kd ms k) (.otSent ch ms :: v) a

theorem Straight.bind {p : Proc M α} {v : List (Event M)} {a : α} (h : Straight p v a)
    {f : α → Proc M γ} {w : List (Event M)} {c : γ} (h2 : Straight (f a) w c) :
    Straight (p.bind f) (v ++ w) c := by
  induction h with
  | ret a => exact h2
  | send ch m k v a _ ih => exact .send _ _ _ _ _ (ih h2)
  | otSend ch kd ms k v a _ ih => exact .otSend _ _ _ _ _ _ (ih h2)

/-- Whatever the other party `q` does, such a party's view is always a prefix of `v`, and if it
    returns, it returns `a` and its view is `v`. -/
theorem Straight.view {p : Proc M α} {v : List (Event M)} {a : α} (h : Straight p v a)
    {n : Nat} {s t : Net M α β} (hs : Steps n s t) (hp : s.p = p) :
    ∃ w r, t.pv = s.pv ++ w ∧ v = w ++ r ∧ Straight t.p r a := by
  induction hs generalizing p v with
  | zero s => exact ⟨[], v, by simp, rfl, by rw [hp]; exact h⟩
  | succ h1 _ ih =>
    cases h1 with
    | pSend ch m k q pq qp pv qv =>
      simp only at hp
      subst hp
      cases h with
      | send _ _ _ v' _ h' =>
        obtain ⟨w, r, e1, e2, e3⟩ := ih h' rfl
        exact ⟨.sent ch m :: w, r, by simp [e1], by simp [e2], e3⟩
    | qSend => exact ih h hp
    | pRecv ch m ms k q pq qp pv qv _ => simp only at hp; subst hp; cases h
    | qRecv => exact ih h hp
    | otPQ ch kd ms cs kp kq pq qp pv qv _ _ _ =>
      simp only at hp
      subst hp
      cases h with
      | otSend _ _ _ _ v' _ h' =>
        obtain ⟨w, r, e1, e2, e3⟩ := ih h' rfl
        exact ⟨.otSent ch ms :: w, r, by simp [e1], by simp [e2], e3⟩
    | otQP ch kd ms cs kp kq pq qp pv qv _ _ _ => simp only at hp; subst hp; cases h

/-! ### Swapping the parties -/

/-- (Part of the network model, not of the code; see `Proc` for the places, e.g. spfss_known_index.h:127, 160.) -/
def swap (s : Net M α β) : Net M β α := ⟨s.q, s.p, s.qp, s.pq, s.qv, s.pv⟩

theorem Step.swap {s t : Net M α β} (h : Step s t) : Step s.swap t.swap := by
  cases h with
  | pSend => exact .qSend ..
  | qSend => exact .pSend ..
  | pRecv _ _ _ _ _ _ _ _ _ h => exact .qRecv _ _ _ _ _ _ _ _ _ h
  | qRecv _ _ _ _ _ _ _ _ _ h => exact .pRecv _ _ _ _ _ _ _ _ _ h
  | otPQ _ _ _ _ _ _ _ _ _ _ h h1 h2 => exact .otQP _ _ _ _ _ _ _ _ _ _ h h2 h1
  | otQP _ _ _ _ _ _ _ _ _ _ h h1 h2 => exact .otPQ _ _ _ _ _ _ _ _ _ _ h h2 h1

theorem Joint.swap {p : Proc M α} {q : Proc M β} {a b va vb} (h : Joint p q a b va vb) :
    Joint q p b a vb va := by
  obtain ⟨n, hn⟩ := h
  refine ⟨n, ?_⟩
  have key : ∀ n (s t : Net M α β), Steps n s t → Steps n s.swap t.swap := by
    intro n s t h
    induction h with
    | zero => exact .zero _
    | succ h1 _ ih => exact .succ h1.swap ih
  exact key _ _ _ hn

end Net

/-! ### Programs with a status result -/

/-- A party program whose result is a status (all protocol functions of the repository return
    `mpc_utils::Status` or `StatusOr`). (E.g. spfss_known_index.h:103-105.) -/
def PM (M : Type) (α : Type) : Type := Proc M (Out α)

namespace PM
variable {M α β γ : Type}

/-- Sequencing with early return, as by `RETURN_IF_ERROR`/`ASSIGN_OR_RETURN`.
    (E.g. spfss_known_index.h:110, all_but_one_random_ot.h:74.) -/
protected def bind (p : PM M α) (f : α → PM M β) : PM M β :=
  Proc.bind p (fun
    | .ok a => f a
    | .err c m => .ret (.err c m)
    | .throws m => .ret (.throws m)
    | .ub w => .ret (.ub w)
    | .diverge => .ret .diverge)

/-- Sequencing with early return (e.g. spfss_known_index.h:110). -/
instance : Monad (PM M) where
  pure a := Proc.ret (.ok a)
  bind := PM.bind

/-- A local computation. (E.g. spfss_known_index.h:112-126.) -/
def lift (x : Out α) : PM M α := Proc.ret x

/-- Send a message. (E.g. spfss_known_index.h:127.) -/
def send (ch : Nat) (m : M) : PM M Unit := Proc.send ch m (.ret (.ok ()))
/-- Receive a message. (E.g. spfss_known_index.h:160.) -/
def recv (ch : Nat) : PM M M := Proc.recv ch (fun m => .ret (.ok m))
/-- OT as sender. (all_but_one_random_ot.h:220, internal/gilboa_internal.h:112, 145.) -/
def otSend (ch : Nat) (kd : OTKind) (ms : List (Block × Block)) : PM M Unit :=
  Proc.otSend ch kd ms (.ret (.ok ()))
/-- OT as receiver. (all_but_one_random_ot.cpp:94, scalar_vector_gilboa_product.h:109, 111.) -/
def otRecv (ch : Nat) (kd : OTKind) (cs : List Bool) : PM M (List Block) :=
  Proc.otRecv ch kd cs (fun r => .ret (.ok r))

@[simp] theorem pure_eq (a : α) : (pure a : PM M α) = Proc.ret (.ok a) := rfl
@[simp] theorem lift_ok_bind (a : α) (f : α → PM M β) : (lift (.ok a) >>= f) = f a := rfl
@[simp] theorem lift_err_bind (c m) (f : α → PM M β) : (lift (.err c m) >>= f) = lift (.err c m) := rfl
@[simp] theorem lift_ub_bind (w) (f : α → PM M β) : (lift (.ub w) >>= f) = lift (.ub w) := rfl
@[simp] theorem lift_throws_bind (w) (f : α → PM M β) : (lift (.throws w) >>= f) = lift (.throws w) := rfl
@[simp] theorem lift_diverge_bind (f : α → PM M β) : (lift .diverge >>= f) = lift .diverge := rfl
@[simp] theorem ret_ok_bind (a : α) (f : α → PM M β) : (@bind (PM M) _ α β (Proc.ret (.ok a)) f) = f a := rfl
theorem send_bind (ch m) (f : Unit → PM M β) : (send ch m >>= f) = Proc.send ch m (f ()) := rfl
theorem recv_bind (ch) (f : M → PM M β) : (recv ch >>= f) = Proc.recv ch f := rfl
theorem otSend_bind (ch kd ms) (f : Unit → PM M β) :
    (otSend ch kd ms >>= f) = Proc.otSend ch kd ms (f ()) := rfl
theorem otRecv_bind (ch kd cs) (f : List Block → PM M β) :
    (otRecv ch kd cs >>= f) = Proc.otRecv ch kd cs f := rfl

/-- (Part of the network model, not of the code; see `Proc` for the places, e.g. spfss_known_index.h:127, 160.) -/
instance : LawfulMonad (PM M) := LawfulMonad.mk' _
  (by
    intro α x
    show PM.bind x (fun a => Proc.ret (.ok (id a))) = x
    have h := Proc.bind_ret' x
    unfold PM.bind
    refine Eq.trans ?_ h
    congr 1
    funext o
    cases o <;> rfl)
  (by intros; rfl)
  (by
    intro α β γ x f g
    show PM.bind (PM.bind x f) g = PM.bind x (fun a => PM.bind (f a) g)
    unfold PM.bind
    refine (Proc.bind_assoc' _ _ _).trans ?_
    congr 1
    funext o
    cases o <;> rfl)

end PM

namespace Net
variable {M α β γ δ : Type}

/-- Sequential composition when both parts succeed on both sides. -/
theorem Joint.bindOk {p : PM M α} {q : PM M β} {a b va vb} {f : α → PM M γ} {g : β → PM M δ}
    {c d vc vd} (h1 : Joint p q (.ok a) (.ok b) va vb) (h2 : Joint (f a) (g b) c d vc vd) :
    Joint (p >>= f : PM M γ) (q >>= g : PM M δ) c d (va ++ vc) (vb ++ vd) :=
  Joint.bind h1 h2

/-- `p` receives nothing.
    (Part of the network model, not of the code; see `Proc` for the places, e.g. spfss_known_index.h:127, 160.) -/
def IsStraight (p : Proc M α) : Prop := ∃ v r, Straight p v r

theorem IsStraight.ret (a : α) : IsStraight (.ret a : Proc M α) := ⟨_, _, .ret a⟩
theorem IsStraight.lift (a : Out α) : IsStraight (PM.lift a : PM M α) := ⟨_, _, .ret a⟩
theorem IsStraight.send (ch : Nat) (m : M) : IsStraight (PM.send ch m : PM M Unit) :=
  ⟨_, _, .send _ _ _ _ _ (.ret _)⟩
theorem IsStraight.otSend (ch : Nat) (kd) (ms) : IsStraight (PM.otSend ch kd ms : PM M Unit) :=
  ⟨_, _, .otSend _ _ _ _ _ _ (.ret _)⟩
theorem IsStraight.bind {p : PM M α} {f : α → PM M β} (h : IsStraight p) (hf : ∀ a, IsStraight (f a)) :
    IsStraight (p >>= f : PM M β) := by
  obtain ⟨v, r, h⟩ := h
  cases r with
  | ok a => obtain ⟨w, r, h2⟩ := hf a; exact ⟨_, _, Straight.bind h h2⟩
  | err c m => exact ⟨_, _, Straight.bind h (.ret _)⟩
  | throws m => exact ⟨_, _, Straight.bind h (.ret _)⟩
  | ub m => exact ⟨_, _, Straight.bind h (.ret _)⟩
  | diverge => exact ⟨_, _, Straight.bind h (.ret _)⟩

end Net
end DVO
