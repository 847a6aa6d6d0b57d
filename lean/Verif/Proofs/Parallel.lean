/-
Iterations that only touch their own slots can be interleaved in any way.
-/
import Verif.Model.Parallel
import Verif.Proofs.Loops

namespace DVO.Par
variable {σ α : Type}

/-- The same successful results. (If there is undefined behaviour then there is some under every schedule, though
    not necessarily the same.) -/
def Agree (x y : Out σ) : Prop := ∀ s, x = .ok s ↔ y = .ok s

theorem Agree.refl (x : Out σ) : Agree x x := fun _ => Iff.rfl
theorem Agree.symm {x y : Out σ} (h : Agree x y) : Agree y x := fun s => (h s).symm
theorem Agree.trans {x y z : Out σ} (h : Agree x y) (h' : Agree y z) : Agree x z := fun s => (h s).trans (h' s)

theorem Agree.bind {β : Type} {x y : Out σ} {f g : σ → Out β} (h : Agree x y) (hf : ∀ s, x = .ok s → Agree (f s) (g s)) :
    Agree (x >>= f) (y >>= g) := by
  intro b
  rw [Out.bind_eq_ok, Out.bind_eq_ok]
  constructor
  · rintro ⟨s, h1, h2⟩; exact ⟨s, (h s).1 h1, (hf s h1 b).1 h2⟩
  · rintro ⟨s, h1, h2⟩; exact ⟨s, (h s).2 h1, (hf s ((h s).2 h1) b).2 h2⟩

theorem run_append (l m : List (α → Out α)) (a : α) : run (l ++ m) a = run l a >>= run m := by
  induction l generalizing a with
  | nil => rfl
  | cons f l ih =>
    simp only [List.cons_append, run]
    rw [bind_assoc]
    congr 1
    funext b
    exact ih b

/-- Two steps can be exchanged. -/
def Swap (f g : σ → Out σ) : Prop := ∀ s, Agree (f s >>= g) (g s >>= f)

theorem exec_cons (a : Nat × (σ → Out σ)) (t : Trace σ) (s : σ) : exec (a :: t) s = a.2 s >>= exec t := rfl

theorem exec_append (t u : Trace σ) (s : σ) : exec (t ++ u) s = exec t s >>= exec u := by
  unfold exec
  rw [List.map_append, run_append]

theorem move_front {p q : Trace σ} {a : Nat × (σ → Out σ)} (h : ∀ b ∈ p, Swap b.2 a.2) (s : σ) :
    Agree (exec (p ++ a :: q) s) (exec (a :: (p ++ q)) s) := by
  induction p generalizing s with
  | nil => exact Agree.refl _
  | cons b p ih =>
    have h1 : Agree (exec (b :: (p ++ a :: q)) s) (exec (b :: a :: (p ++ q)) s) :=
      (Agree.refl _).bind (fun s' _ => ih (fun c hc => h c (by simp [hc])) s')
    refine h1.trans ?_
    rw [exec_cons, exec_cons]
    show Agree (b.2 s >>= fun s' => a.2 s' >>= exec (p ++ q)) (a.2 s >>= fun s' => b.2 s' >>= exec (p ++ q))
    rw [← bind_assoc, ← bind_assoc]
    exact (h b (by simp) s).bind (fun s' _ => Agree.refl _)

/-- Two executions with the same steps per iteration agree if steps of different iterations can be
    exchanged. -/
theorem exec_agree {t u : Trace σ} (h : ∀ i, t.filter (fun a => a.1 == i) = u.filter (fun a => a.1 == i))
    (hc : ∀ a ∈ u, ∀ b ∈ u, a.1 ≠ b.1 → Swap a.2 b.2) (s : σ) : Agree (exec t s) (exec u s) := by
  induction t generalizing u s with
  | nil =>
    cases u with
    | nil => exact Agree.refl _
    | cons a u =>
      have := h a.1
      simp at this
  | cons a t ih =>
    have ha := h a.1
    rw [List.filter_cons_of_pos (by simp)] at ha
    obtain ⟨p, q, hu, hp, _⟩ := List.filter_eq_cons_iff.1 ha.symm
    obtain ⟨_, hq⟩ := ‹_ ∧ _›
    subst hu
    have hpn : ∀ b ∈ p, b.1 ≠ a.1 := fun b hb e => by simpa [e] using hp b hb
    refine Agree.trans ?_ (move_front (fun b hb => hc b (by simp [hb]) a (by simp) (hpn b hb)) s).symm
    rw [exec_cons, exec_cons]
    refine (Agree.refl _).bind (fun s' _ => ih (u := p ++ q) ?_ ?_ s')
    · intro i
      have hi := h i
      rw [List.filter_append] at hi ⊢
      by_cases e : a.1 = i
      · have hp0 : p.filter (fun b => b.1 == i) = [] := by
          rw [List.filter_eq_nil_iff]
          intro b hb
          simpa [← e] using hpn b hb
        rw [hp0, List.filter_cons_of_pos (by simpa using e), List.filter_cons_of_pos (by simpa using e), List.nil_append] at hi
        rw [hp0, List.nil_append]
        exact List.tail_eq_of_cons_eq hi
      · rw [List.filter_cons_of_neg (by simpa using e), List.filter_cons_of_neg (by simpa using e)] at hi
        exact hi
    · intro b hb c hc' 
      have hm : ∀ x, x ∈ p ++ q → x ∈ p ++ a :: q := fun x hx => by
        rcases List.mem_append.1 hx with h | h <;> simp [h]
      exact hc b (hm b hb) c (hm c hc')

theorem Mem.upd_swap (M : Mem σ α) {i j : Nat} (h : i ≠ j) (f g : α → Out α) : Swap (M.upd i f) (M.upd j g) := by
  have key : ∀ {i j : Nat}, i ≠ j → ∀ (f g : α → Out α) (s s' : σ), (M.upd i f s >>= M.upd j g) = .ok s' →
      ∃ a b a' b', M.get s i = some a ∧ M.get s j = some b ∧ f a = .ok a' ∧ g b = .ok b' ∧ s' = M.set (M.set s i a') j b' := by
    intro i j h f g s s' e
    unfold Mem.upd at e
    cases h1 : M.get s i with
    | none => rw [h1] at e; cases e
    | some a =>
      rw [h1] at e
      rw [Out.bind_eq_ok] at e
      obtain ⟨s1, e1, e2⟩ := e
      obtain ⟨a', e3, e4⟩ := Out.bind_eq_ok.1 e1
      cases e4
      rw [M.get_set_ne _ _ _ _ h] at e2
      cases h2 : M.get s j with
      | none => rw [h2] at e2; cases e2
      | some b =>
        rw [h2] at e2
        obtain ⟨b', e5, e6⟩ := Out.bind_eq_ok.1 e2
        cases e6
        exact ⟨a, b, a', b', rfl, rfl, e3, e5, rfl⟩
  have back : ∀ {i j : Nat}, i ≠ j → ∀ (f g : α → Out α) (s : σ) (a b a' b' : α), M.get s i = some a → M.get s j = some b →
      f a = .ok a' → g b = .ok b' → (M.upd i f s >>= M.upd j g) = .ok (M.set (M.set s i a') j b') := by
    intro i j h f g s a b a' b' h1 h2 h3 h4
    unfold Mem.upd
    rw [h1]
    simp only [h3, Out.ok_bind]
    rw [M.get_set_ne _ _ _ _ h, h2]
    simp only [h4, Out.ok_bind]
  intro s s'
  constructor
  · intro e
    obtain ⟨a, b, a', b', h1, h2, h3, h4, rfl⟩ := key h f g s s' e
    rw [back h.symm g f s b a b' a' h2 h1 h4 h3, M.set_comm _ _ _ _ _ h]
  · intro e
    obtain ⟨a, b, a', b', h1, h2, h3, h4, rfl⟩ := key h.symm g f s s' e
    rw [back h f g s b a b' a' h2 h1 h4 h3, M.set_comm _ _ _ _ _ h]

/-- The steps of one iteration together. -/
theorem run_upd (M : Mem σ α) (i : Nat) (l : List (α → Out α)) {s : σ} (h : (M.get s i).isSome) :
    run (l.map (M.upd i)) s = M.upd i (run l) s := by
  obtain ⟨a, ha⟩ := Option.isSome_iff_exists.1 h
  have : ∀ (l : List (α → Out α)) (s : σ) (a : α), M.get s i = some a → run (l.map (M.upd i)) s = run l a >>= fun a => .ok (M.set s i a) := by
    intro l
    induction l with
    | nil => intro s a ha; simp [run, M.set_get _ _ _ ha]
    | cons f l ih =>
      intro s a ha
      simp only [List.map_cons, run]
      rw [Mem.upd, ha]
      show ((f a >>= fun a => Out.ok (M.set s i a)) >>= _) = _
      rw [bind_assoc, bind_assoc]
      congr 1
      funext b
      rw [Out.ok_bind, ih _ b (M.get_set _ _ _ (by rw [ha]; rfl))]
      simp only [M.set_set]
  rw [this l s a ha, Mem.upd, ha]

theorem Mem.upd_dom (M : Mem σ α) {i : Nat} {f : α → Out α} {s s' : σ} (h : M.upd i f s = .ok s') (j : Nat) :
    (M.get s' j).isSome = (M.get s j).isSome := by
  unfold Mem.upd at h
  cases h1 : M.get s i with
  | none => rw [h1] at h; cases h
  | some a =>
    rw [h1] at h
    obtain ⟨a', e3, e4⟩ := Out.bind_eq_ok.1 h
    cases e4
    by_cases e : i = j
    · subst e; rw [M.get_set _ _ _ (by rw [h1]; rfl), h1]; rfl
    · rw [M.get_set_ne _ _ _ _ e]

theorem Mem.upd_ne (M : Mem σ α) {i : Nat} {f : α → Out α} {s s' : σ} (h : M.upd i f s = .ok s') {j : Nat} (hj : i ≠ j) :
    M.get s' j = M.get s j := by
  unfold Mem.upd at h
  cases h1 : M.get s i with
  | none => rw [h1] at h; cases h
  | some a =>
    rw [h1] at h
    obtain ⟨a', e3, e4⟩ := Out.bind_eq_ok.1 h
    cases e4
    exact M.get_set_ne _ _ _ _ hj

/-- The iterations in order. -/
def inOrder (body : Nat → List (σ → Out σ)) (lo n : Nat) : Trace σ :=
  (List.range' lo n).flatMap (fun i => (body i).map (fun f => (i, f)))

theorem inOrder_filter (body : Nat → List (σ → Out σ)) (lo n i : Nat) :
    (inOrder body lo n).filter (fun a => a.1 == i) = if lo ≤ i ∧ i < lo + n then (body i).map (fun f => (i, f)) else [] := by
  induction n generalizing lo with
  | zero => rw [if_neg (by omega)]; rfl
  | succ n ih =>
    have : inOrder body lo (n + 1) = (body lo).map (fun f => (lo, f)) ++ inOrder body (lo + 1) n := by
      simp [inOrder, List.range'_succ]
    rw [this, List.filter_append, ih, List.filter_map]
    by_cases e : lo = i
    · subst e
      rw [if_neg (by omega), if_pos (by omega), List.append_nil]
      congr 1
      rw [List.filter_eq_self]
      simp
    · have h0 : (body lo).filter ((fun a : Nat × (σ → Out σ) => a.1 == i) ∘ fun f => (lo, f)) = [] := by
        rw [List.filter_eq_nil_iff]
        simp [e]
      rw [h0, List.map_nil, List.nil_append]
      by_cases h : lo + 1 ≤ i ∧ i < lo + 1 + n
      · rw [if_pos h, if_pos (by omega)]
      · rw [if_neg h, if_neg (by omega)]

theorem inOrder_loop (M : Mem σ α) (acts : Nat → List (α → Out α)) (F : Nat → α → Out α) (lo n : Nat)
    {s : σ} (hs : ∀ i, lo ≤ i → i < lo + n → ∀ a, M.get s i = some a → run (acts i) a = F i a) (hd : ∀ i, lo ≤ i → i < lo + n → (M.get s i).isSome) :
    exec (inOrder (fun i => (acts i).map (M.upd i)) lo n) s = loop (fun i => M.upd i (F i)) lo n s := by
  induction n generalizing lo s with
  | zero => rfl
  | succ n ih =>
    have : inOrder (fun i => (acts i).map (M.upd i)) lo (n + 1) =
        ((acts lo).map (M.upd lo)).map (fun f => (lo, f)) ++ inOrder (fun i => (acts i).map (M.upd i)) (lo + 1) n := by
      simp [inOrder, List.range'_succ]
    rw [this, exec_append]
    have h1 : exec (((acts lo).map (M.upd lo)).map (fun f => (lo, f))) s = M.upd lo (F lo) s := by
      unfold exec
      rw [List.map_map, show ((fun x : Nat × (σ → Out σ) => x.2) ∘ fun f => (lo, f)) = id from rfl, List.map_id, run_upd M lo _ (hd lo (by omega) (by omega))]
      obtain ⟨a, ha⟩ := Option.isSome_iff_exists.1 (hd lo (by omega) (by omega))
      unfold Mem.upd
      rw [ha]
      simp only [hs lo (by omega) (by omega) a ha]
    rw [h1]
    simp only [loop]
    cases e : M.upd lo (F lo) s with
    | ok s' =>
      rw [Out.ok_bind, Out.ok_bind]
      exact ih (lo + 1) (fun i h1 h2 a ha => hs i (by omega) (by omega) a (by rw [← M.upd_ne e (by omega : lo ≠ i)]; exact ha)) (fun i h1 h2 => by rw [M.upd_dom e]; exact hd i (by omega) (by omega))
    | _ => rfl

/-- Every schedule agrees with the iterations in order. -/
theorem schedule {M : Mem σ α} {n : Nat} {F : Nat → α → Out α} {s : σ} {t : Trace σ} (h : Schedule M n F s t)
    (hd : ∀ i < n, (M.get s i).isSome) : Agree (exec t s) (loop (fun i => M.upd i (F i)) 0 n s) := by
  obtain ⟨acts, hs, ht⟩ := h
  rw [← inOrder_loop M acts F 0 n (fun i _ h a ha => hs i (by omega) a ha) (fun i _ h => hd i (by omega))]
  have hf : ∀ i, (inOrder (fun i => (acts i).map (M.upd i)) 0 n).filter (fun a => a.1 == i) = t.filter (fun a => a.1 == i) := by
    intro i
    rw [inOrder_filter]
    by_cases h : i < n
    · rw [if_pos (by omega)]
      have : _ = (acts i).map (M.upd i) := ht.2 i h
      rw [← this, List.map_map]
      conv_rhs => rw [← List.map_id (t.filter (fun a => a.1 == i))]
      apply List.map_congr_left
      intro a ha
      have : a.1 = i := by simpa using (List.mem_filter.1 ha).2
      simp [← this]
    · rw [if_neg (by omega), eq_comm, List.filter_eq_nil_iff]
      intro a ha
      have := ht.1 a ha
      simp only [beq_iff_eq]
      omega
  refine (exec_agree hf ?_ s).symm
  intro a ha b hb hne
  have key : ∀ a ∈ t, ∃ f, a.2 = M.upd a.1 f := by
    intro a ha
    have h1 := ht.2 a.1 (ht.1 a ha)
    have h2 : a.2 ∈ (t.filter (fun b => b.1 == a.1)).map (·.2) := List.mem_map.2 ⟨a, List.mem_filter.2 ⟨ha, by simp⟩, rfl⟩
    rw [h1] at h2
    obtain ⟨f, _, hf⟩ := List.mem_map.1 h2
    exact ⟨f, hf.symm⟩
  obtain ⟨f, hf'⟩ := key a ha
  obtain ⟨g, hg⟩ := key b hb
  rw [hf', hg]
  exact M.upd_swap hne f g

theorem loop_agree {f g : Nat → σ → Out σ} (lo n : Nat) (s : σ) (h : ∀ i s, lo ≤ i → i < lo + n → Agree (f i s) (g i s)) :
    Agree (loop f lo n s) (loop g lo n s) := by
  induction n generalizing lo s with
  | zero => exact Agree.refl _
  | succ n ih =>
    exact (h lo s (by omega) (by omega)).bind (fun s' _ => ih (lo + 1) s' (fun i s h1 h2 => h i s (by omega) (by omega)))

/-- Every order of whole iterations is such a schedule. -/
theorem Schedule.order (M : Mem σ α) {n : Nat} (F : Nat → α → Out α) (s : σ) {o : List Nat} (ho : o.Perm (List.range n)) :
    Schedule M n F s (o.map (fun i => (i, M.upd i (F i)))) := by
  refine ⟨fun i => [F i], fun i _ a _ => by simp only [run]; cases F i a <;> rfl, ?_⟩
  refine ⟨?_, ?_⟩
  · intro a ha
    obtain ⟨i, hi, rfl⟩ := List.mem_map.1 ha
    exact List.mem_range.1 (ho.mem_iff.1 hi)
  · intro i hi
    rw [List.filter_map, List.map_map]
    have h1 : o.filter ((fun a : Nat × (σ → Out σ) => a.1 == i) ∘ fun i => (i, M.upd i (F i))) = [i] := by
      have hn : o.Nodup := ho.nodup_iff.2 List.nodup_range
      have hm : i ∈ o := ho.mem_iff.2 (List.mem_range.2 hi)
      have : o.filter ((fun a : Nat × (σ → Out σ) => a.1 == i) ∘ fun i => (i, M.upd i (F i))) = o.filter (fun a => a == i) := rfl
      rw [this, List.filter_beq, List.count_eq_one_of_mem hn hm]
      rfl
    rw [h1]
    rfl

/-- Two iterations of two steps each, interleaved. -/
theorem Schedule.two (M : Mem σ α) (f g f' g' : α → Out α) (F : Nat → α → Out α) (s : σ) (h0 : ∀ a, M.get s 0 = some a → (f a >>= g) = F 0 a)
    (h1 : ∀ a, M.get s 1 = some a → (f' a >>= g') = F 1 a) :
    Schedule M 2 F s [(0, M.upd 0 f), (1, M.upd 1 f'), (1, M.upd 1 g'), (0, M.upd 0 g)] := by
  refine ⟨fun i => if i = 0 then [f, g] else [f', g'], ?_, ?_, ?_⟩
  · intro i hi a ha
    have hr : ∀ f g : α → Out α, run [f, g] a = f a >>= g := by
      intro f g
      simp only [run]
      congr 1
      funext b
      cases g b <;> rfl
    rcases (by omega : i = 0 ∨ i = 1) with rfl | rfl
    · exact (hr f g).trans (h0 a ha)
    · exact (hr f' g').trans (h1 a ha)
  · simp
  · intro i hi
    rcases (by omega : i = 0 ∨ i = 1) with rfl | rfl <;> rfl

theorem list_upd (i : Nat) (f : α → Out α) (l : List α) :
    Agree ((Mem.list α).upd i f l) (do let x ← rd l i; let y ← f x; wr l i y) := by
  unfold Mem.upd
  show Agree (match l[i]? with | none => _ | some a => _) _
  cases h : l[i]? with
  | none =>
    rw [show rd l i = .ub "read out of bounds" by unfold rd; rw [h]]
    intro s; constructor <;> intro e <;> cases e
  | some a =>
    rw [rd_eq_ok.2 h, Out.ok_bind]
    refine (Agree.refl _).bind (fun y _ => ?_)
    rw [wr_of_lt _ (List.getElem?_eq_some_iff.1 h).1]
    exact Agree.refl _

theorem pair_upd {β : Type} (i : Nat) (f : α × β → Out (α × β)) (s : List α × List β) :
    Agree ((Mem.pair α β).upd i f s) (do
      let a ← rd s.1 i
      let b ← rd s.2 i
      let r ← f (a, b)
      let x ← wr s.1 i r.1
      let y ← wr s.2 i r.2
      .ok (x, y)) := by
  unfold Mem.upd
  cases h : s.1[i]? with
  | none =>
    rw [show (Mem.pair α β).get s i = none by simp [Mem.pair, h]]
    rw [show rd s.1 i = .ub "read out of bounds" by unfold rd; rw [h]]
    intro s; constructor <;> intro e <;> cases e
  | some a =>
    rw [rd_eq_ok.2 h, Out.ok_bind]
    cases h' : s.2[i]? with
    | none =>
      rw [show (Mem.pair α β).get s i = none by simp [Mem.pair, h, h']]
      rw [show rd s.2 i = .ub "read out of bounds" by unfold rd; rw [h']]
      intro s; constructor <;> intro e <;> cases e
    | some b =>
      rw [show (Mem.pair α β).get s i = some (a, b) by simp [Mem.pair, h, h']]
      rw [rd_eq_ok.2 h', Out.ok_bind]
      refine (Agree.refl _).bind (fun y _ => ?_)
      rw [wr_of_lt _ (List.getElem?_eq_some_iff.1 h).1, wr_of_lt _ (List.getElem?_eq_some_iff.1 h').1]
      exact Agree.refl _

end DVO.Par
