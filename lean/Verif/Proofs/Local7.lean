/-
What happens to the elements of the vector OLE in one call and in the life of an object.
-/
import Verif.Proofs.Local6

namespace DVO.VOLE
open MPFSS
set_option linter.unusedSectionVars false
variable {T α β : Type}

/-- `r` consists of the elements of `l`, one after the other. -/
structure Gathers (l : List (SRes T)) (r : SRes T) : Prop where
  u : r.u = (l.map (·.u)).flatten
  v : r.v = (l.map (·.v)).flatten
  ids : r.ids = (l.map (·.ids)).flatten

/-- `r` consists of the elements of `l`, one after the other. -/
structure GathersR (l : List (RRes T)) (r : RRes T) : Prop where
  w : r.w = (l.map (·.w)).flatten
  ids : r.ids = (l.map (·.ids)).flatten

theorem Gathers.fromMade {l : List (SRes T)} {r : SRes T} (h : Gathers l r) {m : List (T × T)} (hl : ∀ x ∈ l, FromMade m x) : FromMade m r := by
  have key : ∀ l : List (SRes T), (∀ x ∈ l, FromMade m x) → FromMade m ⟨(l.map (·.u)).flatten, (l.map (·.v)).flatten, (l.map (·.ids)).flatten⟩ := by
    intro l
    induction l with
    | nil => intro _; exact .nil m
    | cons a l ih =>
      intro hl
      exact (hl a (by simp)).append (ih (fun x hx => hl x (List.mem_cons_of_mem _ hx)))
  obtain ⟨h1, h2, h3⟩ := h
  have := key l hl
  rw [← h1, ← h2, ← h3] at this
  exact this

theorem GathersR.fromMade {l : List (RRes T)} {r : RRes T} (h : GathersR l r) {m : List T} (hl : ∀ x ∈ l, FromMadeR m x) : FromMadeR m r := by
  have key : ∀ l : List (RRes T), (∀ x ∈ l, FromMadeR m x) → FromMadeR m ⟨(l.map (·.w)).flatten, r.delta, (l.map (·.ids)).flatten⟩ := by
    intro l
    induction l with
    | nil => intro _; exact .nil m _
    | cons a l ih =>
      intro hl
      exact (hl a (by simp)).append r.delta (ih (fun x hx => hl x (List.mem_cons_of_mem _ hx)))
  obtain ⟨h1, h3⟩ := h
  have := key l hl
  rw [← h1, ← h3] at this
  exact this

theorem sentIds_map (l : List (SRes T)) : sentIds (l.map .sent) = (l.map (·.ids)).flatten := by
  induction l with
  | nil => rfl
  | cons a l ih => simp [sentIds, ih]

theorem rcvdIds_map (l : List (RRes T)) : rcvdIds (l.map .rcvd) = (l.map (·.ids)).flatten := by
  induction l with
  | nil => rfl
  | cons a l ih => simp [rcvdIds, ih]

theorem sentIds_rcvd (l : List (RRes T)) : sentIds (l.map .rcvd) = [] := by
  induction l with
  | nil => rfl
  | cons a l ih => simp [sentIds, ih]

theorem rcvdIds_sent (l : List (SRes T)) : rcvdIds (l.map .sent) = [] := by
  induction l with
  | nil => rfl
  | cons a l ih => simp [rcvdIds, ih]

theorem sentIds_delta (l : List T) : sentIds (l.map .delta) = [] := by
  induction l with
  | nil => rfl
  | cons a l ih => simp [sentIds, ih]

theorem rcvdIds_delta (l : List T) : rcvdIds (l.map .delta) = [] := by
  induction l with
  | nil => rfl
  | cons a l ih => simp [rcvdIds, ih]

variable [Scalar T]

theorem senderRest_moves (E : Env T) (n : Int) (s : VState T) (hs : Shape s) : Loc (senderRest E n s)
    (fun r s' => ∃ l, Moves true s (l.map .sent) s' ∧ Gathers l r)
    (fun _ s' => ∃ l : List (SRes T), Moves true s (l.map .sent) s') := by
  rcases senderRest_cases E n s with ⟨rest, res, h, e⟩ | ⟨h, e⟩ | ⟨w, e⟩
  · rw [e]
    exact Loc.ret ⟨[res], .prim (.sGive s n rest res h), ⟨by simp, by simp, by simp⟩⟩
  · rw [e]
    have hm : Moves true s [] { s with pos := s.pos + 1 + 1 } := .prim (.adj ..)
    refine (runSenderLoop_moves E n _ _ _ _ (hs.moves hm) (by simp) (by simp) (by simp)).mono ?_ ?_
    · rintro r s' ⟨l, h1, h2⟩
      exact ⟨l, hm.after h1, ⟨by simpa using h2.u, by simpa using h2.v, by simpa using h2.ids⟩⟩
    · rintro e s' ⟨l, h1⟩
      exact ⟨l, hm.after h1⟩
  · rw [e]
    exact Loc.fail rfl ⟨[], .refl s⟩

theorem runSender_moves (E : Env T) (n : Int) (s : VState T) (hs : Shape s) : Loc (runSender E n s)
    (fun r s' => ∃ l, Moves true s (l.map .sent) s' ∧ Gathers l r)
    (fun _ s' => ∃ l : List (SRes T), Moves true s (l.map .sent) s') := by
  rw [runSender_eq]
  split
  · exact senderRest_moves E n s hs
  · refine Loc.bind ((precomputeSender_loc E n s).mono (fun _ _ h => h.moves) (fun e s' h => ⟨[], h.2.1⟩)) ?_
    intro _ s1 hm
    refine (senderRest_moves E n s1 (hs.moves hm)).mono ?_ ?_
    · rintro r s' ⟨l, h1, h2⟩; exact ⟨l, hm.after h1, h2⟩
    · rintro r s' ⟨l, h1⟩; exact ⟨l, hm.after h1⟩

theorem receiverRest_moves (E : Env T) (n : Int) (s : VState T) (hs : Shape s) : Loc (receiverRest E n s)
    (fun r s' => ∃ l, Moves true s (l.map .rcvd) s' ∧ GathersR l r ∧ r.delta = s.rCached.delta)
    (fun _ s' => ∃ l : List (RRes T), Moves false s (l.map .rcvd) s') := by
  rcases receiverRest_cases E n s with ⟨rest, res, h, e⟩ | ⟨h, e⟩ | ⟨-, w, e⟩
  · rw [e]
    refine Loc.ret ⟨[res], .prim (.rGive s n rest res h), ⟨by simp, by simp⟩, ?_⟩
    obtain ⟨-, -, -, rfl⟩ := getReceiver_ok h
    rfl
  · rw [e]
    have hm : ∀ c, Moves c s [] { s with pos := s.pos + 1 } := fun c => .prim (.adj ..)
    refine (runReceiverLoop_moves E n _ _ _ _ (hs.moves (hm true)) (by simp) (by simp)).mono ?_ ?_
    · rintro r s' ⟨l, h1, h2⟩
      exact ⟨l, (hm _).after h1, ⟨by simpa using h2.w, by simpa using h2.ids⟩, h2.delta⟩
    · rintro e s' ⟨l, h1⟩
      exact ⟨l, (hm _).after h1⟩
  · rw [e]
    exact Loc.fail rfl ⟨[], .refl s⟩

/-- What `PrecomputeReceiver` without `delta` does. -/
theorem precomputeReceiver'_loc (E : Env T) (b : Int) (s : VState T) : Loc (precomputeReceiver' E b s)
    (fun _ s' => ∃ d, PreR b d s s')
    (fun e s' => (E.lib.NoStatus → Calm e) ∧ (∃ d n, Moves false s (List.replicate n (.delta d)) s') ∧ s'.rDone = s.rDone ∧ Booted s s') := by
  unfold precomputeReceiver'
  refine Loc.drawBind (fun r p => ?_)
  have hm : ∀ c, Moves c s [] { s with pos := p } := fun c => .prim (.adj ..)
  refine (precomputeReceiver_loc E b (r.elems 0) _).mono ?_ ?_
  · rintro _ s' ⟨h1, h2, h3, h4, h5, h6, h7, h8⟩
    exact ⟨_, h1, h2, h3, h4, h5, h6, ⟨h7.1, h7.2⟩, (hm _).after h8⟩
  · rintro e s' ⟨h1, ⟨n, h2⟩, h3, h4⟩
    exact ⟨h1, ⟨_, n, (hm _).after h2⟩, h3, h4⟩

theorem runReceiver_moves (E : Env T) (n : Int) (s : VState T) (hs : Shape s) : Loc (runReceiver E n s)
    (fun r s' => ∃ ds l, Moves true s (ds.map .delta ++ l.map .rcvd) s' ∧ GathersR l r ∧ r.delta = s'.rCached.delta ∧ s'.rDone = true ∧ (s.rDone = true → ds = []))
    (fun _ s' => ∃ ds, ∃ l : List (RRes T), Moves false s (ds.map .delta ++ l.map .rcvd) s' ∧ (s.rDone = true → ds = [])) := by
  have delta : ∀ {c : Bool} {s s' : VState T} {l : List (RRes T)}, Moves c s (l.map .rcvd) s' → s'.rCached.delta = s.rCached.delta := by
    intro c s s' l h
    rw [h.delta, lastDelta_rcvd]
  rw [runReceiver_eq]
  split
  · refine (receiverRest_moves E n s hs).mono ?_ ?_
    · rintro r s' ⟨l, h1, h2, h3⟩; exact ⟨[], l, h1, h2, h3.trans (delta h1).symm, h1.done.2 ‹_›, fun _ => rfl⟩
    · rintro r s' ⟨l, h1⟩; exact ⟨[], l, h1, fun _ => rfl⟩
  · rename_i hd
    refine Loc.bind ((precomputeReceiver'_loc E n s).mono (fun _ _ h => h) ?_) ?_
    · rintro e s' ⟨-, ⟨d, k, h2⟩, -⟩
      exact ⟨List.replicate k d, [], by simpa using h2, fun h => absurd h hd⟩
    rintro _ s1 ⟨d, hp⟩
    refine (receiverRest_moves E n s1 (hs.moves hp.moves)).mono ?_ ?_
    · rintro r s' ⟨l, h1, h2, h3⟩; exact ⟨[d], l, hp.moves.trans h1, h2, h3.trans (delta h1).symm, h1.done.2 hp.rDone, fun h => absurd h hd⟩
    · rintro r s' ⟨l, h1⟩; exact ⟨[d], l, hp.moves.dirty.trans h1, fun h => absurd h hd⟩

/-! ### One call -/

/-- What a call as a sender hands out. -/
def Handed (l : List (SRes T)) : Answer T → Prop
  | .done => l = []
  | .sent r => Gathers l r
  | .rcvd _ => False

/-- What a call as a receiver hands out. -/
def HandedR (l : List (RRes T)) (d : T) : Answer T → Prop
  | .done => l = []
  | .sent _ => False
  | .rcvd r => GathersR l r ∧ r.delta = d

theorem asSender_moves (E : Env T) (op : Op T) (s : VState T) (hs : Shape s) : Loc (asSender E op s)
    (fun a s' => ∃ l, Moves true s (l.map .sent) s' ∧ Handed l a)
    (fun _ s' => ∃ l : List (SRes T), Moves true s (l.map .sent) s') := by
  cases op with
  | precompute f b d =>
    refine Loc.bind ((precomputeSender_loc E b s).mono (fun _ _ h => h.moves) (fun e s' h => ⟨[], h.2.1⟩)) (fun _ s' h => Loc.ret ⟨[], h, rfl⟩)
  | precomputeRandom f b =>
    refine Loc.bind ((precomputeSender_loc E b s).mono (fun _ _ h => h.moves) (fun e s' h => ⟨[], h.2.1⟩)) (fun _ s' h => Loc.ret ⟨[], h, rfl⟩)
  | run f n =>
    refine Loc.bind (runSender_moves E n s hs) ?_
    rintro r s' ⟨l, h1, h2⟩
    exact Loc.ret ⟨l, h1, h2⟩

/-- The values that a call may give to `delta`. -/
def Op.gives (done : Bool) (ds : List T) : Op T → Prop
  | .precompute _ _ d => ∀ x ∈ ds, x = d
  | .precomputeRandom _ _ => True
  | .run _ _ => done = true → ds = []

theorem asReceiver_moves (E : Env T) (op : Op T) (s : VState T) (hs : Shape s) : Loc (asReceiver E op s)
    (fun a s' => ∃ ds l, Moves true s (ds.map .delta ++ l.map .rcvd) s' ∧ HandedR l s'.rCached.delta a ∧ s'.rDone = true ∧ op.gives s.rDone ds)
    (fun _ s' => ∃ ds, ∃ l : List (RRes T), Moves false s (ds.map .delta ++ l.map .rcvd) s' ∧ op.gives s.rDone ds) := by
  cases op with
  | precompute f b d =>
    refine Loc.bind ((precomputeReceiver_loc E b d s).mono (fun _ _ h => h) ?_) (fun _ s' h => Loc.ret ⟨[d], [], h.moves, rfl, h.rDone, by simp [Op.gives]⟩)
    rintro e s' ⟨-, ⟨k, h2⟩, -⟩
    exact ⟨List.replicate k d, [], by simpa using h2, fun x hx => (List.mem_replicate.1 hx).2⟩
  | precomputeRandom f b =>
    refine Loc.bind ((precomputeReceiver'_loc E b s).mono (fun _ _ h => h) ?_) ?_
    · rintro e s' ⟨-, ⟨d, k, h2⟩, -⟩
      exact ⟨List.replicate k d, [], by simpa using h2, trivial⟩
    · rintro _ s' ⟨d, h⟩
      exact Loc.ret ⟨[d], [], h.moves, rfl, h.rDone, trivial⟩
  | run f n =>
    refine Loc.bind ((runReceiver_moves E n s hs).mono (fun _ _ h => h) ?_) ?_
    · rintro e s' ⟨ds, l, h1, h2⟩; exact ⟨ds, l, h1, h2⟩
    · rintro r s' ⟨ds, l, h1, h2, h3, h4, h5⟩
      exact Loc.ret ⟨ds, l, h1, ⟨h2, h3⟩, h4, h5⟩

/-! ### Lives -/

theorem sentResults_append (a b : List (Op T × Out (Answer T))) : sentResults (a ++ b) = sentResults a ++ sentResults b := by
  induction a with
  | nil => rfl
  | cons x a ih =>
    obtain ⟨op, o⟩ := x
    cases o with
    | ok v => cases v <;> simp [sentResults, ih]
    | _ => simp [sentResults, ih]

theorem rcvdResults_append (a b : List (Op T × Out (Answer T))) : rcvdResults (a ++ b) = rcvdResults a ++ rcvdResults b := by
  induction a with
  | nil => rfl
  | cons x a ih =>
    obtain ⟨op, o⟩ := x
    cases o with
    | ok v => cases v <;> simp [rcvdResults, ih]
    | _ => simp [rcvdResults, ih]

/-- What is known of a life from the events in it. -/
structure Told (l : List (Op T × Out (Answer T))) (evs : List (Ev T)) : Prop where
  sent : ((sentResults l).flatMap (·.ids)).Sublist (sentIds evs)
  rcvd : ((rcvdResults l).flatMap (·.ids)).Sublist (rcvdIds evs)
  sres : ∀ r ∈ sentResults l, ∃ ps : List (SRes T), Gathers ps r ∧ ∀ p ∈ ps, Ev.sent p ∈ evs
  rres : ∀ r ∈ rcvdResults l, ∃ ps : List (RRes T), GathersR ps r ∧ ∀ p ∈ ps, Ev.rcvd p ∈ evs

theorem Told.nil : Told (T := T) [] [] := ⟨.refl _, .refl _, by simp [sentResults], by simp [rcvdResults]⟩

theorem Told.quiet {l : List (Op T × Out (Answer T))} {evs : List (Ev T)} (h : Told l evs) (x : Op T × Out (Answer T))
    (hx : sentResults [x] = []) (hy : rcvdResults [x] = []) (evs' : List (Ev T)) : Told (l ++ [x]) (evs ++ evs') := by
  obtain ⟨h1, h2, h3, h4⟩ := h
  refine ⟨?_, ?_, ?_, ?_⟩
  · rw [sentResults_append, hx, List.append_nil, sentIds_append]; exact h1.trans (List.sublist_append_left _ _)
  · rw [rcvdResults_append, hy, List.append_nil, rcvdIds_append]; exact h2.trans (List.sublist_append_left _ _)
  · rw [sentResults_append, hx, List.append_nil]
    intro r hr
    obtain ⟨ps, g1, g2⟩ := h3 r hr
    exact ⟨ps, g1, fun p hp => List.mem_append_left _ (g2 p hp)⟩
  · rw [rcvdResults_append, hy, List.append_nil]
    intro r hr
    obtain ⟨ps, g1, g2⟩ := h4 r hr
    exact ⟨ps, g1, fun p hp => List.mem_append_left _ (g2 p hp)⟩

theorem quiet_fail {op : Op T} {o : Out (Answer T)} {e} (h : failure o = some e) : sentResults [(op, o)] = [] ∧ rcvdResults [(op, o)] = [] := by
  cases o with
  | ok a => cases h
  | _ => exact ⟨rfl, rfl⟩

theorem Told.sender {l : List (Op T × Out (Answer T))} {evs : List (Ev T)} (h : Told l evs) (op : Op T) {ps : List (SRes T)} {a : Answer T}
    (ha : Handed ps a) : Told (l ++ [(op, .ok a)]) (evs ++ ps.map .sent) := by
  cases a with
  | done => exact h.quiet _ rfl rfl _
  | rcvd r => exact absurd ha id
  | sent r =>
    have ha : Gathers ps r := ha
    obtain ⟨h1, h2, h3, h4⟩ := h
    have e1 : sentResults [(op, (Out.ok (Answer.sent r)))] = [r] := rfl
    have e2 : rcvdResults [(op, (Out.ok (Answer.sent r)))] = [] := rfl
    refine ⟨?_, ?_, ?_, ?_⟩
    · rw [sentResults_append, e1, List.flatMap_append, sentIds_append, sentIds_map]
      refine h1.append ?_
      simp [ha.ids]
    · rw [rcvdResults_append, e2, List.append_nil, rcvdIds_append]; exact h2.trans (List.sublist_append_left _ _)
    · rw [sentResults_append, e1]
      intro x hx
      rcases List.mem_append.1 hx with hx | hx
      · obtain ⟨ps, g1, g2⟩ := h3 x hx
        exact ⟨ps, g1, fun p hp => List.mem_append_left _ (g2 p hp)⟩
      · cases List.mem_singleton.1 hx
        exact ⟨ps, ha, fun p hp => List.mem_append_right _ (List.mem_map_of_mem hp)⟩
    · rw [rcvdResults_append, e2, List.append_nil]
      intro r hr
      obtain ⟨ps, g1, g2⟩ := h4 r hr
      exact ⟨ps, g1, fun p hp => List.mem_append_left _ (g2 p hp)⟩

theorem Told.receiver {l : List (Op T × Out (Answer T))} {evs : List (Ev T)} (h : Told l evs) (op : Op T) {ds : List T} {ps : List (RRes T)} {a : Answer T} {d : T}
    (ha : HandedR ps d a) : Told (l ++ [(op, .ok a)]) (evs ++ (ds.map .delta ++ ps.map .rcvd)) := by
  cases a with
  | done => exact h.quiet _ rfl rfl _
  | sent r => exact absurd ha id
  | rcvd r =>
    have ha : GathersR ps r ∧ r.delta = d := ha
    obtain ⟨h1, h2, h3, h4⟩ := h
    have e1 : rcvdResults [(op, (Out.ok (Answer.rcvd r)))] = [r] := rfl
    have e2 : sentResults [(op, (Out.ok (Answer.rcvd r)))] = [] := rfl
    refine ⟨?_, ?_, ?_, ?_⟩
    · rw [sentResults_append, e2, List.append_nil, sentIds_append]; exact h1.trans (List.sublist_append_left _ _)
    · rw [rcvdResults_append, e1, List.flatMap_append, rcvdIds_append, rcvdIds_append, rcvdIds_delta, rcvdIds_map]
      refine h2.append ?_
      simp [ha.1.ids]
    · rw [sentResults_append, e2, List.append_nil]
      intro r hr
      obtain ⟨ps, g1, g2⟩ := h3 r hr
      exact ⟨ps, g1, fun p hp => List.mem_append_left _ (g2 p hp)⟩
    · rw [rcvdResults_append, e1]
      intro x hx
      rcases List.mem_append.1 hx with hx | hx
      · obtain ⟨ps, g1, g2⟩ := h4 x hx
        exact ⟨ps, g1, fun p hp => List.mem_append_left _ (g2 p hp)⟩
      · cases List.mem_singleton.1 hx
        exact ⟨ps, ha.1, fun p hp => List.mem_append_right _ (List.mem_append_right _ (List.mem_map_of_mem hp))⟩

/-- The elements in the life of an object. -/
theorem Lives.moves {E : Env T} {s0 s : VState T} {l : List (Op T × Out (Answer T))} (hs : Shape s0) (h : Lives E s0 l s) :
    ∃ evs, Moves false s0 evs s ∧ Told l evs := by
  induction h with
  | new => exact ⟨[], .refl _, .nil⟩
  | @call l s op o s' _ hr ih =>
    obtain ⟨evs, h1, h2⟩ := ih
    have hsh := hs.moves h1
    by_cases hf : op.fwd = true
    · rw [if_pos hf] at hr
      rcases asSender_moves E op s hsh _ _ hr with ⟨a, rfl, ps, h3, h4⟩ | ⟨e, he, ps, h3⟩
      · exact ⟨_, h1.trans h3.dirty, h2.sender op h4⟩
      · exact ⟨_, h1.trans h3.dirty, h2.quiet _ (quiet_fail he).1 (quiet_fail he).2 _⟩
    · rw [if_neg hf] at hr
      rcases asReceiver_moves E op s hsh _ _ hr with ⟨a, rfl, ds, ps, h3, h4, -, -⟩ | ⟨e, he, ds, ps, h3, -⟩
      · exact ⟨_, h1.trans h3.dirty, h2.receiver op h4⟩
      · exact ⟨_, h1.trans h3, h2.quiet _ (quiet_fail he).1 (quiet_fail he).2 _⟩

/-- If all calls as a receiver succeed, there are no uninitialised elements. -/
theorem Lives.clean {E : Env T} {s0 s : VState T} {l : List (Op T × Out (Answer T))} (hs : Shape s0) (h : Lives E s0 l s)
    (hok : ∀ x ∈ l, x.1.fwd = false → ∃ a, x.2 = .ok a) : ∃ evs, Moves true s0 evs s ∧ Told l evs := by
  induction h with
  | new => exact ⟨[], .refl _, .nil⟩
  | @call l s op o s' _ hr ih =>
    obtain ⟨evs, h1, h2⟩ := ih (fun x hx => hok x (List.mem_append_left _ hx))
    have hsh := hs.moves h1
    by_cases hf : op.fwd = true
    · rw [if_pos hf] at hr
      rcases asSender_moves E op s hsh _ _ hr with ⟨a, rfl, ps, h3, h4⟩ | ⟨e, he, ps, h3⟩
      · exact ⟨_, h1.trans h3, h2.sender op h4⟩
      · exact ⟨_, h1.trans h3, h2.quiet _ (quiet_fail he).1 (quiet_fail he).2 _⟩
    · rw [if_neg hf] at hr
      obtain ⟨a, ha⟩ := hok (op, o) (by simp) (by simpa using hf)
      dsimp only at ha
      subst ha
      obtain ⟨ds, ps, h3, h4, -⟩ := (asReceiver_moves E op s hsh).ok hr
      exact ⟨_, h1.trans h3, h2.receiver op h4⟩

/-- A life can be cut into two. -/
theorem Lives.split {E : Env T} {s0 s : VState T} {l1 l2 : List (Op T × Out (Answer T))} (h : Lives E s0 (l1 ++ l2) s) :
    ∃ s1, Lives E s0 l1 s1 ∧ Lives E s1 l2 s := by
  generalize e : l1 ++ l2 = l at h
  induction h generalizing l2 with
  | new =>
    obtain ⟨rfl, rfl⟩ := List.append_eq_nil_iff.1 e
    exact ⟨_, .new, .new⟩
  | @call l s op o s' hl hr ih =>
    rcases List.eq_nil_or_concat l2 with rfl | ⟨l2', x, rfl⟩
    · rw [List.append_nil] at e
      subst e
      exact ⟨_, .call hl hr, .new⟩
    · rw [List.concat_eq_append, ← List.append_assoc] at e
      obtain ⟨e1, e2⟩ := List.append_inj' e rfl
      cases e2
      obtain ⟨s1, h1, h2⟩ := ih e1
      exact ⟨s1, h1, by rw [List.concat_eq_append]; exact .call h2 hr⟩

theorem Lives.single {E : Env T} {s0 s : VState T} {op : Op T} {o : Out (Answer T)} (h : Lives E s0 [(op, o)] s) :
    Returns ((if op.fwd then asSender E op else asReceiver E op) s0) (o, s) := by
  generalize e : [(op, o)] = l at h
  cases h with
  | new => cases e
  | @call l s op o s' hl hr =>
    rcases l with - | ⟨x, l⟩
    · cases e
      generalize e2 : ([] : List (Op T × Out (Answer T))) = l' at hl
      cases hl with
      | new => exact hr
      | call => simp at e2
    · simp at e

theorem Shape.new (st : State) (junk : T) : Shape (VState.new st junk) := ⟨rfl, rfl, rfl⟩

/-- `delta` does not change as long as there is no precomputation. -/
theorem Lives.delta {E : Env T} {s0 s : VState T} {l : List (Op T × Out (Answer T))} (hs : Shape s0) (h : Lives E s0 l s) (hd : s0.rDone = true)
    (hl : ∀ x ∈ l, x.1.fwd = true ∨ ∃ f n, x.1 = .run f n) :
    s.rDone = true ∧ s.rCached.delta = s0.rCached.delta ∧ ∀ r ∈ rcvdResults l, r.delta = s0.rCached.delta := by
  induction h with
  | new => exact ⟨hd, rfl, by simp [rcvdResults]⟩
  | @call l s op o s' hl' hr ih =>
    obtain ⟨h1, h2, h3⟩ := ih (fun x hx => hl x (List.mem_append_left _ hx))
    obtain ⟨evs, hm, -⟩ := Lives.moves hs hl'
    have hsh := hs.moves hm
    have sDelta : ∀ {c : Bool} {s s' : VState T} {l : List (SRes T)}, Moves c s (l.map .sent) s' → s'.rCached.delta = s.rCached.delta := by
      intro c s s' l h
      rw [h.delta, lastDelta_sent]
    have rDelta : ∀ {c : Bool} {s s' : VState T} {l : List (RRes T)}, Moves c s (l.map .rcvd) s' → s'.rCached.delta = s.rCached.delta := by
      intro c s s' l h
      rw [h.delta, lastDelta_rcvd]
    by_cases hf : op.fwd = true
    · rw [if_pos hf] at hr
      rcases asSender_moves E op s hsh _ _ hr with ⟨a, rfl, ps, h4, h5⟩ | ⟨e, he, ps, h4⟩
      · refine ⟨h4.done.2 h1, (sDelta h4).trans h2, ?_⟩
        rw [rcvdResults_append]
        intro r hr
        rcases List.mem_append.1 hr with hr | hr
        · exact h3 r hr
        · cases a with
          | done => simp [rcvdResults] at hr
          | sent => simp [rcvdResults] at hr
          | rcvd => exact absurd h5 id
      · refine ⟨h4.done.2 h1, (sDelta h4).trans h2, ?_⟩
        rw [rcvdResults_append, (quiet_fail he).2, List.append_nil]
        exact h3
    · rw [if_neg hf] at hr
      rcases hl (op, o) (by simp) with h0 | ⟨f, n, h0⟩
      · exact absurd h0 hf
      dsimp only at h0
      subst h0
      rcases asReceiver_moves E _ s hsh _ _ hr with ⟨a, rfl, ds, ps, h4, h5, h6, h7⟩ | ⟨e, he, ds, ps, h4, h7⟩
      · cases h7 h1
        refine ⟨h6, (rDelta h4).trans h2, ?_⟩
        rw [rcvdResults_append]
        intro r hr
        rcases List.mem_append.1 hr with hr | hr
        · exact h3 r hr
        · cases a with
          | done => simp [rcvdResults] at hr
          | sent => simp [rcvdResults] at hr
          | rcvd r' =>
            simp only [rcvdResults, List.mem_singleton] at hr
            subst hr
            exact h5.2.trans ((rDelta h4).trans h2)
      · cases h7 h1
        refine ⟨h4.done.2 h1, (rDelta h4).trans h2, ?_⟩
        rw [rcvdResults_append, (quiet_fail he).2, List.append_nil]
        exact h3

end DVO.VOLE
