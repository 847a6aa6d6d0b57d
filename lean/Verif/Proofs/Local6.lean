/-
Histories of calls made on one object.
-/
import Verif.Proofs.Local5
import Verif.Spec.VOLE

namespace DVO.VOLE
open MPFSS
set_option linter.unusedSectionVars false
variable {T α β : Type}

/-! ### Correlations are used once -/

/-- The ids handed out as a sender. -/
def sentIds : List (Ev T) → List (Option Nat)
  | [] => []
  | .sent r :: l => r.ids ++ sentIds l
  | _ :: l => sentIds l

/-- The ids handed out as a receiver. -/
def rcvdIds : List (Ev T) → List (Option Nat)
  | [] => []
  | .rcvd r :: l => r.ids ++ rcvdIds l
  | _ :: l => rcvdIds l

theorem sentIds_append (a b : List (Ev T)) : sentIds (a ++ b) = sentIds a ++ sentIds b := by
  induction a with
  | nil => rfl
  | cons x a ih => cases x <;> simp [sentIds, ih]

theorem rcvdIds_append (a b : List (Ev T)) : rcvdIds (a ++ b) = rcvdIds a ++ rcvdIds b := by
  induction a with
  | nil => rfl
  | cons x a ih => cases x <;> simp [rcvdIds, ih]

theorem FromMade.grow {m : List (T × T)} {r : SRes T} (h : FromMade m r) (x : List (T × T)) : FromMade (m ++ x) r := by
  obtain ⟨h1, h2, h3⟩ := h
  refine ⟨h1, h2, fun k u v hu hv => ?_⟩
  obtain ⟨j, h4, h5⟩ := h3 k u v hu hv
  exact ⟨j, h4, by rw [List.getElem?_append_left (List.getElem?_eq_some_iff.1 h5).1]; exact h5⟩

theorem FromMade.nil (m : List (T × T)) : FromMade m ⟨[], [], []⟩ := ⟨rfl, rfl, by simp⟩

theorem FromMade.append {m : List (T × T)} {a b : SRes T} (ha : FromMade m a) (hb : FromMade m b) : FromMade m ⟨a.u ++ b.u, a.v ++ b.v, a.ids ++ b.ids⟩ := by
  obtain ⟨a1, a2, a3⟩ := ha
  obtain ⟨b1, b2, b3⟩ := hb
  refine ⟨by simp [a1, b1], by simp [a2, b2], fun k u v hu hv => ?_⟩
  dsimp only at hu hv ⊢
  by_cases hk : k < a.u.length
  · rw [List.getElem?_append_left hk] at hu
    rw [List.getElem?_append_left (by omega)] at hv
    rw [List.getElem?_append_left (by omega)]
    exact a3 k u v hu hv
  · rw [List.getElem?_append_right (by omega)] at hu
    rw [List.getElem?_append_right (by omega), a1] at hv
    rw [List.getElem?_append_right (by omega), a2]
    exact b3 _ u v hu hv

theorem FromMade.fresh (m : List (T × T)) (u v : List T) (h : u.length = v.length) : FromMade (m ++ List.zip u v) ⟨u, v, freshIds m.length u.length⟩ := by
  refine ⟨h.symm, freshIds_length _ _, fun k a b ha hb => ⟨m.length + k, ?_, ?_⟩⟩
  · dsimp only at ha ⊢
    have : k < u.length := by rw [List.getElem?_eq_some_iff] at ha; exact ha.1
    simp [freshIds, this]
  · dsimp only at ha hb
    rw [List.getElem?_append_right (by omega), List.getElem?_zip_eq_some]
    simp [ha, hb]

theorem FromMade.get {m : List (T × T)} {c rest a : SRes T} {n : Int} (h : FromMade m c) (hg : getSender c n = .ok (rest, a)) :
    FromMade m rest ∧ FromMade m a ∧ c.ids = rest.ids ++ a.ids := by
  obtain ⟨g1, g2, g3, rfl, rfl⟩ := getSender_ok hg
  obtain ⟨h1, h2, h3⟩ := h
  refine ⟨⟨by simp [h1], by simp [h2], fun k u v hu hv => ?_⟩, ⟨by simp [h1], by simp [h2], fun k u v hu hv => ?_⟩, by simp⟩
  · dsimp only at hu hv ⊢
    rw [List.getElem?_take] at hu hv
    split at hu
    · rename_i hk
      rw [if_pos (by omega)] at hv
      rw [List.getElem?_take, if_pos (by omega)]
      exact h3 k u v hu hv
    · cases hu
  · dsimp only at hu hv ⊢
    rw [List.getElem?_drop] at hu hv ⊢
    rw [h1] at hv
    rw [h2]
    exact h3 _ u v hu hv

/-- Everything about the correlations generated as a sender: `evs` is what was handed out so far. -/
structure OnceS (evs : List (Ev T)) (s : VState T) : Prop where
  nodup : (sentIds evs ++ s.sUsed ++ s.sCached.ids).Nodup
  lt : ∀ i ∈ sentIds evs ++ s.sUsed ++ s.sCached.ids, ∃ j, i = some j ∧ j < s.sMade.length
  cached : FromMade s.sMade s.sCached
  vole : FromMade s.sMade s.sVole
  mpfss : FromMade s.sMade s.sMpfss
  volUsed : s.sVole.ids ⊆ s.sUsed
  mpUsed : s.sMpfss.ids ⊆ s.sUsed
  sent : ∀ r, Ev.sent r ∈ evs → FromMade s.sMade r

theorem mem_fresh {a n : Nat} {i : Option Nat} (h : i ∈ freshIds a n) : ∃ j, i = some j ∧ a ≤ j ∧ j < a + n := by
  simp only [freshIds, List.mem_map, List.mem_range] at h
  obtain ⟨k, hk, rfl⟩ := h
  exact ⟨a + k, rfl, by omega, by omega⟩

theorem fresh_nodup (a n : Nat) : (freshIds a n).Nodup := by
  unfold freshIds
  refine List.Nodup.map ?_ List.nodup_range
  intro x y h
  simpa using h

theorem OnceS.new (st : State) (junk : T) : OnceS [] (VState.new st junk) :=
  ⟨by simp [sentIds, VState.new], by simp [sentIds, VState.new], .nil _, .nil _, .nil _, by simp [VState.new], by simp [VState.new], by simp⟩

theorem OnceS.prim {c : Bool} {evs l : List (Ev T)} {s s' : VState T} (h : Prim c s l s') (H : OnceS evs s) : OnceS (evs ++ l) s' := by
  obtain ⟨nd, lt, ca, vo, mp, vu, mu, se⟩ := H
  have silent : ∀ {l : List (Ev T)}, (∀ r, Ev.sent r ∉ l) → sentIds (evs ++ l) = sentIds evs ∧ ∀ r, Ev.sent r ∈ evs ++ l → FromMade s.sMade r := by
    intro l hl
    refine ⟨?_, fun r hr => ?_⟩
    · rw [sentIds_append]
      have : sentIds l = [] := by
        clear nd lt
        induction l with
        | nil => rfl
        | cons x l ih =>
          cases x with
          | sent r => exact absurd (List.mem_cons_self) (hl r)
          | rcvd r => exact ih (fun r hr => hl r (List.mem_cons_of_mem _ hr))
          | delta r => exact ih (fun r hr => hl r (List.mem_cons_of_mem _ hr))
      rw [this, List.append_nil]
    · rcases List.mem_append.1 hr with hr | hr
      · exact se r hr
      · exact absurd hr (hl r)
  have same : ∀ (l : List (Ev T)) (s' : VState T), (∀ r, Ev.sent r ∉ l) → s'.sUsed = s.sUsed → s'.sCached = s.sCached → s'.sMade = s.sMade → s'.sVole = s.sVole → s'.sMpfss = s.sMpfss →
      OnceS (evs ++ l) s' := by
    intro l s' hl e1 e2 e3 e4 e5
    obtain ⟨e6, e7⟩ := silent hl
    exact ⟨by rw [e6, e1, e2]; exact nd, by rw [e6, e1, e2, e3]; exact lt, by rw [e2, e3]; exact ca, by rw [e4, e3]; exact vo, by rw [e5, e3]; exact mp,
      by rw [e4, e1]; exact vu, by rw [e5, e1]; exact mu, by rw [e3]; exact e7⟩
  have used : ∀ (rest a : SRes T) (n : Int), getSender s.sCached n = .ok (rest, a) →
      (sentIds evs ++ (s.sUsed ++ a.ids) ++ rest.ids).Nodup ∧ (∀ i ∈ sentIds evs ++ (s.sUsed ++ a.ids) ++ rest.ids, ∃ j, i = some j ∧ j < s.sMade.length) := by
    intro rest a n hg
    obtain ⟨h1, h2, h3⟩ := ca.get hg
    have hperm : (sentIds evs ++ (s.sUsed ++ a.ids) ++ rest.ids).Perm (sentIds evs ++ s.sUsed ++ s.sCached.ids) := by
      rw [h3, List.append_assoc, List.append_assoc, List.append_assoc]
      exact (List.perm_append_comm.append_left _).append_left _
    exact ⟨hperm.nodup_iff.2 nd, fun i hi => lt i (hperm.mem_iff.1 hi)⟩
  cases h
  case adj => exact same _ _ (by simp) rfl rfl rfl rfl rfl
  case sDone => exact same _ _ (by simp) rfl rfl rfl rfl rfl
  case rDone => exact same _ _ (by simp) rfl rfl rfl rfl rfl
  case rJunk => exact same _ _ (by simp) rfl rfl rfl rfl rfl
  case rReset => exact same _ _ (by simp) rfl rfl rfl rfl rfl
  case rGarbage => exact same _ _ (by simp) rfl rfl rfl rfl rfl
  case rGrow => exact same _ _ (by simp) rfl rfl rfl rfl rfl
  case rVole => exact same _ _ (by simp) rfl rfl rfl rfl rfl
  case rMpfss => exact same _ _ (by simp) rfl rfl rfl rfl rfl
  case rGive => exact same _ _ (by simp) rfl rfl rfl rfl rfl
  case rGiveAll => exact same _ _ (by simp) rfl rfl rfl rfl rfl
  case sReset u v h =>
    obtain ⟨e6, e7⟩ := silent (l := []) (by simp)
    refine ⟨?_, ?_, .fresh _ _ _ h, vo.grow _, mp.grow _, vu, mu, fun r hr => (e7 r hr).grow _⟩
    · rw [e6]
      refine List.Nodup.append (nd.of_append_left) (fresh_nodup _ _) ?_
      intro i h1 h2
      obtain ⟨j, rfl, h3⟩ := lt i (List.mem_append_left _ h1)
      obtain ⟨j', e, h4, -⟩ := mem_fresh h2
      cases e; omega
    · rw [e6]
      intro i hi
      simp only [List.length_append, List.length_zip]
      rcases List.mem_append.1 hi with hi | hi
      · obtain ⟨j, e, h3⟩ := lt i (List.mem_append_left _ hi)
        exact ⟨j, e, by omega⟩
      · obtain ⟨j, e, -, h4⟩ := mem_fresh hi
        exact ⟨j, e, by omega⟩
  case sGrow u v h =>
    obtain ⟨e6, e7⟩ := silent (l := []) (by simp)
    refine ⟨?_, ?_, (ca.grow _).append (.fresh _ _ _ h), vo.grow _, mp.grow _, vu, mu, fun r hr => (e7 r hr).grow _⟩
    · rw [e6]
      dsimp only
      rw [← List.append_assoc]
      refine List.Nodup.append nd (fresh_nodup _ _) ?_
      intro i h1 h2
      obtain ⟨j, rfl, h3⟩ := lt i h1
      obtain ⟨j', e, h4, -⟩ := mem_fresh h2
      cases e; omega
    · rw [e6]
      dsimp only
      rw [← List.append_assoc]
      intro i hi
      simp only [List.length_append, List.length_zip]
      rcases List.mem_append.1 hi with hi | hi
      · obtain ⟨j, e, h3⟩ := lt i hi
        exact ⟨j, e, by omega⟩
      · obtain ⟨j, e, -, h4⟩ := mem_fresh hi
        exact ⟨j, e, by omega⟩
  case sVole n rest a h =>
    obtain ⟨e6, e7⟩ := silent (l := []) (by simp)
    obtain ⟨h1, h2, h3⟩ := ca.get h
    obtain ⟨h4, h5⟩ := used rest a n h
    exact ⟨by rw [e6]; exact h4, by rw [e6]; exact h5, h1, h2, mp, List.subset_append_right _ _, fun _ hx => List.mem_append_left _ (mu hx), e7⟩
  case sMpfss n rest a h =>
    obtain ⟨e6, e7⟩ := silent (l := []) (by simp)
    obtain ⟨h1, h2, h3⟩ := ca.get h
    obtain ⟨h4, h5⟩ := used rest a n h
    exact ⟨by rw [e6]; exact h4, by rw [e6]; exact h5, h1, vo, h2, fun _ hx => List.mem_append_left _ (vu hx), List.subset_append_right _ _, e7⟩
  case sGive n rest a h =>
    obtain ⟨h1, h2, h3⟩ := ca.get h
    have e : sentIds (evs ++ [Ev.sent a]) = sentIds evs ++ a.ids := by rw [sentIds_append]; simp [sentIds]
    have hperm : (sentIds (evs ++ [Ev.sent a]) ++ s.sUsed ++ rest.ids).Perm (sentIds evs ++ s.sUsed ++ s.sCached.ids) := by
      rw [e, h3]
      simp only [List.append_assoc]
      refine List.Perm.append_left _ ?_
      rw [← List.append_assoc]
      exact (List.perm_append_comm.append_right _).trans (by rw [List.append_assoc]; exact List.perm_append_comm.append_left _)
    refine ⟨hperm.nodup_iff.2 nd, fun i hi => lt i (hperm.mem_iff.1 hi), h1, vo, mp, vu, mu, fun r hr => ?_⟩
    rcases List.mem_append.1 hr with hr | hr
    · exact se r hr
    · simp at hr; subst hr; exact h2
  case sGiveAll =>
    have e : sentIds (evs ++ [Ev.sent s.sCached]) = sentIds evs ++ s.sCached.ids := by rw [sentIds_append]; simp [sentIds]
    have hperm : (sentIds (evs ++ [Ev.sent s.sCached]) ++ s.sUsed ++ []).Perm (sentIds evs ++ s.sUsed ++ s.sCached.ids) := by
      rw [e]
      simp only [List.append_assoc, List.append_nil]
      exact List.perm_append_comm.append_left _
    refine ⟨hperm.nodup_iff.2 nd, fun i hi => lt i (hperm.mem_iff.1 hi), .nil _, vo, mp, vu, mu, fun r hr => ?_⟩
    rcases List.mem_append.1 hr with hr | hr
    · exact se r hr
    · simp at hr; subst hr; exact ca

theorem OnceS.moves {c : Bool} {evs l : List (Ev T)} {s s' : VState T} (h : Moves c s l s') (H : OnceS evs s) : OnceS (evs ++ l) s' := by
  induction h with
  | refl => simpa using H
  | step _ hp ih => rw [← List.append_assoc]; exact ih.prim hp


/-! ### The receiver -/

theorem FromMadeR.grow {m : List T} {r : RRes T} (h : FromMadeR m r) (x : List T) : FromMadeR (m ++ x) r := by
  obtain ⟨h1, h2⟩ := h
  refine ⟨h1, fun k w j hw hj => ?_⟩
  have h5 := h2 k w j hw hj
  rw [List.getElem?_append_left (List.getElem?_eq_some_iff.1 h5).1]; exact h5

theorem FromMadeR.nil (m : List T) (d : T) : FromMadeR m ⟨[], d, []⟩ := ⟨rfl, by simp⟩

theorem FromMadeR.append {m : List T} {a b : RRes T} (d : T) (ha : FromMadeR m a) (hb : FromMadeR m b) : FromMadeR m ⟨a.w ++ b.w, d, a.ids ++ b.ids⟩ := by
  obtain ⟨a2, a3⟩ := ha
  obtain ⟨b2, b3⟩ := hb
  refine ⟨by simp [a2, b2], fun k w j hw hj => ?_⟩
  dsimp only at hw hj
  by_cases hk : k < a.w.length
  · rw [List.getElem?_append_left hk] at hw
    rw [List.getElem?_append_left (by omega)] at hj
    exact a3 k w j hw hj
  · rw [List.getElem?_append_right (by omega)] at hw
    rw [List.getElem?_append_right (by omega), a2] at hj
    exact b3 _ w j hw hj

theorem FromMadeR.fresh (m w : List T) (d : T) : FromMadeR (m ++ w) ⟨w, d, freshIds m.length w.length⟩ := by
  refine ⟨freshIds_length _ _, fun k a j ha hj => ?_⟩
  dsimp only at ha hj
  have : k < w.length := by rw [List.getElem?_eq_some_iff] at ha; exact ha.1
  simp only [freshIds, List.getElem?_map, List.getElem?_range this, Option.map_some, Option.some.injEq] at hj
  subst hj
  rw [List.getElem?_append_right (by omega)]
  simpa using ha

theorem FromMadeR.junk (m w : List T) (d : T) : FromMadeR m ⟨w, d, List.replicate w.length none⟩ := by
  refine ⟨by simp, fun k a j ha hj => ?_⟩
  simp [List.getElem?_replicate] at hj

theorem FromMadeR.get {m : List T} {c rest a : RRes T} {n : Int} (h : FromMadeR m c) (hg : getReceiver c n = .ok (rest, a)) :
    FromMadeR m rest ∧ FromMadeR m a ∧ c.ids = rest.ids ++ a.ids := by
  obtain ⟨g1, g2, rfl, rfl⟩ := getReceiver_ok hg
  obtain ⟨h2, h3⟩ := h
  refine ⟨⟨by simp [h2], fun k w j hw hj => ?_⟩, ⟨by simp [h2], fun k w j hw hj => ?_⟩, by simp⟩
  · dsimp only at hw hj
    rw [List.getElem?_take] at hw hj
    split at hw
    · rename_i hk
      rw [if_pos (by omega)] at hj
      exact h3 k w j hw hj
    · cases hw
  · dsimp only at hw hj
    rw [List.getElem?_drop] at hw hj
    rw [h2] at hj
    exact h3 _ w j hw hj

/-- Everything about the correlations generated as a receiver: `evs` is what was handed out so far. -/
structure OnceR (evs : List (Ev T)) (s : VState T) : Prop where
  nodup : ((rcvdIds evs ++ s.rUsed ++ s.rCached.ids).filterMap id).Nodup
  lt : ∀ j, some j ∈ rcvdIds evs ++ s.rUsed ++ s.rCached.ids → j < s.rMade.length
  cached : FromMadeR s.rMade s.rCached
  vole : FromMadeR s.rMade s.rVole
  mpfss : FromMadeR s.rMade s.rMpfss
  volUsed : s.rVole.ids ⊆ s.rUsed
  mpUsed : s.rMpfss.ids ⊆ s.rUsed
  rcvd : ∀ r, Ev.rcvd r ∈ evs → FromMadeR s.rMade r

theorem OnceR.new (st : State) (junk : T) : OnceR [] (VState.new st junk) :=
  ⟨by simp [rcvdIds, VState.new], by simp [rcvdIds, VState.new], .nil _ _, .nil _ _, .nil _ _, by simp [VState.new], by simp [VState.new], by simp⟩

theorem fresh_filter (a n : Nat) : ((freshIds a n).filterMap id).Nodup := by
  have : (freshIds a n).filterMap id = (List.range n).map (a + ·) := by
    unfold freshIds
    rw [List.filterMap_map]
    simp [List.filterMap_eq_map']
  rw [this]
  exact List.nodup_range.map (fun x y h => by simpa using h)

theorem OnceR.prim {c : Bool} {evs l : List (Ev T)} {s s' : VState T} (h : Prim c s l s') (H : OnceR evs s) : OnceR (evs ++ l) s' := by
  obtain ⟨nd, lt, ca, vo, mp, vu, mu, se⟩ := H
  have silent : ∀ {l : List (Ev T)}, (∀ r, Ev.rcvd r ∉ l) → rcvdIds (evs ++ l) = rcvdIds evs ∧ ∀ r, Ev.rcvd r ∈ evs ++ l → FromMadeR s.rMade r := by
    intro l hl
    refine ⟨?_, fun r hr => ?_⟩
    · rw [rcvdIds_append]
      have : rcvdIds l = [] := by
        clear nd lt
        induction l with
        | nil => rfl
        | cons x l ih =>
          cases x with
          | rcvd r => exact absurd (List.mem_cons_self) (hl r)
          | sent r => exact ih (fun r hr => hl r (List.mem_cons_of_mem _ hr))
          | delta r => exact ih (fun r hr => hl r (List.mem_cons_of_mem _ hr))
      rw [this, List.append_nil]
    · rcases List.mem_append.1 hr with hr | hr
      · exact se r hr
      · exact absurd hr (hl r)
  have same : ∀ (l : List (Ev T)) (s' : VState T), (∀ r, Ev.rcvd r ∉ l) → s'.rUsed = s.rUsed → s'.rCached = s.rCached → s'.rMade = s.rMade → s'.rVole = s.rVole → s'.rMpfss = s.rMpfss →
      OnceR (evs ++ l) s' := by
    intro l s' hl e1 e2 e3 e4 e5
    obtain ⟨e6, e7⟩ := silent hl
    exact ⟨by rw [e6, e1, e2]; exact nd, by rw [e6, e1, e2, e3]; exact lt, by rw [e2, e3]; exact ca, by rw [e4, e3]; exact vo, by rw [e5, e3]; exact mp,
      by rw [e4, e1]; exact vu, by rw [e5, e1]; exact mu, by rw [e3]; exact e7⟩
  have used : ∀ (rest a : RRes T) (n : Int), getReceiver s.rCached n = .ok (rest, a) →
      ((rcvdIds evs ++ (s.rUsed ++ a.ids) ++ rest.ids).filterMap id).Nodup ∧ (∀ j, some j ∈ rcvdIds evs ++ (s.rUsed ++ a.ids) ++ rest.ids → j < s.rMade.length) := by
    intro rest a n hg
    obtain ⟨h1, h2, h3⟩ := ca.get hg
    have hperm : (rcvdIds evs ++ (s.rUsed ++ a.ids) ++ rest.ids).Perm (rcvdIds evs ++ s.rUsed ++ s.rCached.ids) := by
      rw [h3, List.append_assoc, List.append_assoc, List.append_assoc]
      exact (List.perm_append_comm.append_left _).append_left _
    exact ⟨(hperm.filterMap _).nodup_iff.2 nd, fun i hi => lt i (hperm.mem_iff.1 hi)⟩
  have junk : ∀ (l : List (Option Nat)) n, ((l ++ List.replicate n none).filterMap id) = l.filterMap id := by
    intro l n
    rw [List.filterMap_append]
    have : (List.replicate n none).filterMap (id : Option Nat → _) = [] := by
      rw [List.filterMap_eq_nil_iff]
      intro a ha
      exact (List.mem_replicate.1 ha).2
    rw [this, List.append_nil]
  have junkmem : ∀ (l : List (Option Nat)) n j, some j ∈ l ++ List.replicate n none → some j ∈ l := by
    intro l n j hj
    rcases List.mem_append.1 hj with hj | hj
    · exact hj
    · cases (List.mem_replicate.1 hj).2
  cases h
  case adj => exact same _ _ (by simp) rfl rfl rfl rfl rfl
  case sDone => exact same _ _ (by simp) rfl rfl rfl rfl rfl
  case rDone => exact same _ _ (by simp) rfl rfl rfl rfl rfl
  case sReset => exact same _ _ (by simp) rfl rfl rfl rfl rfl
  case sGrow => exact same _ _ (by simp) rfl rfl rfl rfl rfl
  case sVole => exact same _ _ (by simp) rfl rfl rfl rfl rfl
  case sMpfss => exact same _ _ (by simp) rfl rfl rfl rfl rfl
  case sGive => exact same _ _ (by simp) rfl rfl rfl rfl rfl
  case sGiveAll => exact same _ _ (by simp) rfl rfl rfl rfl rfl
  case rJunk w d h =>
    obtain ⟨e6, e7⟩ := silent (l := [Ev.delta d]) (by simp)
    refine ⟨?_, ?_, .junk _ _ _, vo, mp, vu, mu, e7⟩
    · rw [e6, junk]
      rw [List.filterMap_append] at nd
      exact nd.of_append_left
    · rw [e6]
      intro j hj
      exact lt j (List.mem_append_left _ (junkmem _ _ _ hj))
  case rGarbage w h =>
    obtain ⟨e6, e7⟩ := silent (l := []) (by simp)
    refine ⟨?_, ?_, ca.append _ (.junk _ _ s.rCached.delta), vo, mp, vu, mu, e7⟩
    · rw [e6]
      dsimp only
      rw [← List.append_assoc, junk]
      exact nd
    · rw [e6]
      dsimp only
      rw [← List.append_assoc]
      intro j hj
      exact lt j (junkmem _ _ _ hj)
  case rReset w d =>
    obtain ⟨e6, e7⟩ := silent (l := [Ev.delta d]) (by simp)
    refine ⟨?_, ?_, .fresh _ _ _, vo.grow _, mp.grow _, vu, mu, fun r hr => (e7 r hr).grow _⟩
    · rw [e6, List.filterMap_append]
      rw [List.filterMap_append] at nd
      refine List.Nodup.append (nd.of_append_left) (fresh_filter _ _) ?_
      intro j h1 h2
      simp only [List.mem_filterMap, id, exists_eq_right] at h1 h2
      have h3 := lt j (List.mem_append_left _ h1)
      obtain ⟨j', e, h4, -⟩ := mem_fresh h2
      cases e; omega
    · rw [e6]
      intro j hi
      simp only [List.length_append]
      rcases List.mem_append.1 hi with hi | hi
      · have := lt j (List.mem_append_left _ hi); omega
      · obtain ⟨j', e, -, h4⟩ := mem_fresh hi
        cases e; omega
  case rGrow w =>
    obtain ⟨e6, e7⟩ := silent (l := []) (by simp)
    refine ⟨?_, ?_, (ca.grow _).append _ (.fresh _ _ s.rCached.delta), vo.grow _, mp.grow _, vu, mu, fun r hr => (e7 r hr).grow _⟩
    · rw [e6]
      dsimp only
      rw [← List.append_assoc, List.filterMap_append]
      refine List.Nodup.append nd (fresh_filter _ _) ?_
      intro j h1 h2
      simp only [List.mem_filterMap, id, exists_eq_right] at h1 h2
      have h3 := lt j h1
      obtain ⟨j', e, h4, -⟩ := mem_fresh h2
      cases e; omega
    · rw [e6]
      dsimp only
      rw [← List.append_assoc]
      intro j hi
      simp only [List.length_append]
      rcases List.mem_append.1 hi with hi | hi
      · have := lt j hi; omega
      · obtain ⟨j', e, -, h4⟩ := mem_fresh hi
        cases e; omega
  case rVole n rest a h =>
    obtain ⟨e6, e7⟩ := silent (l := []) (by simp)
    obtain ⟨h1, h2, h3⟩ := ca.get h
    obtain ⟨h4, h5⟩ := used rest a n h
    exact ⟨by rw [e6]; exact h4, by rw [e6]; exact h5, h1, h2, mp, List.subset_append_right _ _, fun _ hx => List.mem_append_left _ (mu hx), e7⟩
  case rMpfss n rest a h =>
    obtain ⟨e6, e7⟩ := silent (l := []) (by simp)
    obtain ⟨h1, h2, h3⟩ := ca.get h
    obtain ⟨h4, h5⟩ := used rest a n h
    exact ⟨by rw [e6]; exact h4, by rw [e6]; exact h5, h1, vo, h2, fun _ hx => List.mem_append_left _ (vu hx), List.subset_append_right _ _, e7⟩
  case rGive n rest a h =>
    obtain ⟨h1, h2, h3⟩ := ca.get h
    have e : rcvdIds (evs ++ [Ev.rcvd a]) = rcvdIds evs ++ a.ids := by rw [rcvdIds_append]; simp [rcvdIds]
    have hperm : (rcvdIds (evs ++ [Ev.rcvd a]) ++ s.rUsed ++ rest.ids).Perm (rcvdIds evs ++ s.rUsed ++ s.rCached.ids) := by
      rw [e, h3]
      simp only [List.append_assoc]
      refine List.Perm.append_left _ ?_
      rw [← List.append_assoc]
      exact (List.perm_append_comm.append_right _).trans (by rw [List.append_assoc]; exact List.perm_append_comm.append_left _)
    refine ⟨(hperm.filterMap _).nodup_iff.2 nd, fun i hi => lt i (hperm.mem_iff.1 hi), h1, vo, mp, vu, mu, fun r hr => ?_⟩
    rcases List.mem_append.1 hr with hr | hr
    · exact se r hr
    · simp at hr; subst hr; exact h2
  case rGiveAll =>
    have e : rcvdIds (evs ++ [Ev.rcvd s.rCached]) = rcvdIds evs ++ s.rCached.ids := by rw [rcvdIds_append]; simp [rcvdIds]
    have hperm : (rcvdIds (evs ++ [Ev.rcvd s.rCached]) ++ s.rUsed ++ []).Perm (rcvdIds evs ++ s.rUsed ++ s.rCached.ids) := by
      rw [e]
      simp only [List.append_assoc, List.append_nil]
      exact List.perm_append_comm.append_left _
    refine ⟨(hperm.filterMap _).nodup_iff.2 nd, fun i hi => lt i (hperm.mem_iff.1 hi), .nil _ _, vo, mp, vu, mu, fun r hr => ?_⟩
    rcases List.mem_append.1 hr with hr | hr
    · exact se r hr
    · simp at hr; subst hr; exact ca

theorem OnceR.moves {c : Bool} {evs l : List (Ev T)} {s s' : VState T} (h : Moves c s l s') (H : OnceR evs s) : OnceR (evs ++ l) s' := by
  induction h with
  | refl => simpa using H
  | step _ hp ih => rw [← List.append_assoc]; exact ih.prim hp

/-- No uninitialised elements. -/
def NoJunk (evs : List (Ev T)) (s : VState T) : Prop := none ∉ rcvdIds evs ∧ none ∉ s.rCached.ids

theorem NoJunk.prim {evs l : List (Ev T)} {s s' : VState T} (h : Prim true s l s') (H : NoJunk evs s) : NoJunk (evs ++ l) s' := by
  obtain ⟨h1, h2⟩ := H
  have fresh : ∀ a n, none ∉ freshIds a n := by intro a n h; obtain ⟨j, e, -⟩ := mem_fresh h; cases e
  have get : ∀ {c rest a : RRes T} {n : Int}, getReceiver c n = .ok (rest, a) → none ∉ c.ids → none ∉ rest.ids ∧ none ∉ a.ids := by
    intro c rest a n hg hc
    obtain ⟨-, -, rfl, rfl⟩ := getReceiver_ok hg
    exact ⟨fun h => hc (List.mem_of_mem_take h), fun h => hc (List.mem_of_mem_drop h)⟩
  unfold NoJunk
  rw [rcvdIds_append]
  cases h
  case adj => exact ⟨by simpa [rcvdIds] using h1, h2⟩
  case sDone => exact ⟨by simpa [rcvdIds] using h1, h2⟩
  case rDone => exact ⟨by simpa [rcvdIds] using h1, h2⟩
  case sReset => exact ⟨by simpa [rcvdIds] using h1, h2⟩
  case sGrow => exact ⟨by simpa [rcvdIds] using h1, h2⟩
  case sVole => exact ⟨by simpa [rcvdIds] using h1, h2⟩
  case sMpfss => exact ⟨by simpa [rcvdIds] using h1, h2⟩
  case sGive => exact ⟨by simpa [rcvdIds] using h1, h2⟩
  case sGiveAll => exact ⟨by simpa [rcvdIds] using h1, h2⟩
  case rJunk h => cases h
  case rGarbage h => cases h
  case rReset => exact ⟨by simpa [rcvdIds] using h1, fresh _ _⟩
  case rGrow => exact ⟨by simpa [rcvdIds] using h1, fun h => (List.mem_append.1 h).elim h2 (fresh _ _)⟩
  case rVole h => exact ⟨by simpa [rcvdIds] using h1, (get h h2).1⟩
  case rMpfss h => exact ⟨by simpa [rcvdIds] using h1, (get h h2).1⟩
  case rGive h => exact ⟨fun h' => (List.mem_append.1 h').elim h1 (by simpa [rcvdIds] using (get h h2).2), (get h h2).1⟩
  case rGiveAll => exact ⟨fun h' => (List.mem_append.1 h').elim h1 (by simpa [rcvdIds] using h2), by simp⟩

theorem NoJunk.moves {evs l : List (Ev T)} {s s' : VState T} (h : Moves true s l s') (H : NoJunk evs s) : NoJunk (evs ++ l) s' := by
  induction h with
  | refl => simpa using H
  | step _ hp ih => rw [← List.append_assoc]; exact ih.prim hp

/-! ### `delta` -/

/-- The last value of `delta`. -/
def lastDelta (d : T) : List (Ev T) → T
  | [] => d
  | .delta d' :: l => lastDelta d' l
  | _ :: l => lastDelta d l

theorem lastDelta_append (d : T) (a b : List (Ev T)) : lastDelta d (a ++ b) = lastDelta (lastDelta d a) b := by
  induction a generalizing d with
  | nil => rfl
  | cons x a ih => cases x <;> simp [lastDelta, ih]

theorem lastDelta_sent (d : T) (l : List (SRes T)) : lastDelta d (l.map .sent) = d := by
  induction l with
  | nil => rfl
  | cons x l ih => exact ih

theorem lastDelta_rcvd (d : T) (l : List (RRes T)) : lastDelta d (l.map .rcvd) = d := by
  induction l with
  | nil => rfl
  | cons x l ih => exact ih

theorem Moves.delta {c : Bool} {l : List (Ev T)} {s s' : VState T} (h : Moves c s l s') : s'.rCached.delta = lastDelta s.rCached.delta l := by
  induction h with
  | refl => rfl
  | step _ hp ih =>
    rw [lastDelta_append, ← ih]
    cases hp <;> try rfl
    all_goals
      rename_i h
      obtain ⟨-, -, rfl, -⟩ := getReceiver_ok h
      rfl

end DVO.VOLE
