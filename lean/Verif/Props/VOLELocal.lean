/-
Properties of one party of the vector OLE, whatever the other party does (C30 - C33, C35 - C37).

`Lives E s0 l s` (Spec/VOLE) says that the calls `l`, with any outcomes, lead from `s0` to `s`; the
peer is arbitrary.
-/
import Verif.Proofs.Local8
import Verif.Props.VOLE

namespace DVO

/-- A party that has returned in some interleaving with some peer can return that. -/
theorem Net.Steps.returns {M α β : Type} {n : Nat} {st st' : Net M α β} (h : Net.Steps n st st') {a : α} (hp : st'.p = .ret a) : Returns st.p a := by
  induction h with
  | zero s => rw [hp]; exact .ret a
  | succ hs _ ih =>
    have := ih hp
    cases hs with
    | pSend => exact .send _ _ _ _ this
    | qSend => exact this
    | pRecv ch m => exact .recv _ _ m _ this
    | qRecv => exact this
    | otPQ => exact .otSend _ _ _ _ _ this
    | otQP ch kd ms cs => exact .otRecv _ _ _ _ (otResult ms cs) _ this

theorem Net.Computes.returns {M α β : Type} {p : Proc M α} {q : Proc M β} {a : α} {b : β} {va vb} (h : Net.Computes p q a b va vb) : Returns p a := by
  obtain ⟨n, hn⟩ := h.joint
  exact hn.returns (a := a) rfl

namespace VOLE
open Net MPFSS

theorem VM.returns {T α β : Type} {p : VM T α} {f : α → VM T β} {s s' : VState T} {b : β} (h : Returns ((p >>= f) s) (.ok b, s')) :
    ∃ a s1, Returns (p s) (.ok a, s1) ∧ Returns (f a s1) (.ok b, s') := by
  obtain ⟨⟨o, s1⟩, h1, h2⟩ := Returns.bind h
  cases o with
  | ok a => exact ⟨a, s1, h1, h2⟩
  | _ => cases h2

variable {T : Type} [Scalar T]

/-- Calls in the life of the first party when both play. -/
theorem Lives.play {E : Env T} {s0 : VState T} {ops : List (Op T)} : ∀ {l : List (Op T × Out (Answer T))} {s : VState T} {as : List (Answer T)} {s' : VState T},
    Lives E s0 l s → Returns (play E true ops s) (.ok as, s') →
    ∃ l', l'.map Prod.fst = ops ∧ l'.map Prod.snd = as.map .ok ∧ Lives E s0 (l ++ l') s' := by
  induction ops with
  | nil =>
    intro l s as s' h hr
    cases hr
    exact ⟨[], rfl, rfl, by rwa [List.append_nil]⟩
  | cons op ops ih =>
    intro l s as s' h hr
    have hc : VOLE.play E true (op :: ops) = (if op.fwd then asSender E op else asReceiver E op) >>= fun a => VOLE.play E true ops >>= fun l => pure (a :: l) := by
      rw [VOLE.play]; split <;> rfl
    rw [hc] at hr
    obtain ⟨a, s1, h1, h2⟩ := VM.returns hr
    have h1' : Returns ((if op.fwd then asSender E op else asReceiver E op) s) (.ok a, s1) := h1
    obtain ⟨as', s2, h3, h4⟩ := VM.returns h2
    cases h4
    obtain ⟨l', e1, e2, e3⟩ := ih (h.call h1') h3
    exact ⟨(op, .ok a) :: l', by simp [e1], by simp [e2], by simpa using e3⟩

/-- The first party of `exOps`: as a sender (`f = true`) and as a receiver. -/
theorem exLives (f : Bool) : ∃ l s, l.map Prod.fst = exOps f ∧ (∀ x ∈ l, ∃ a, x.2 = .ok a) ∧
    Lives (toyEnv true 1 30000000) (created toyHasher 0) l s := by
  obtain ⟨as, s, bs, r, va, vb, h, -, -⟩ := exOps_succeeds f
  obtain ⟨l, h1, h2, h3⟩ := Lives.play (.new) h.returns
  refine ⟨l, s, h1, fun x hx => ?_, h3⟩
  have : x.2 ∈ l.map Prod.snd := List.mem_map_of_mem hx
  rw [h2] at this
  obtain ⟨a, -, e⟩ := List.mem_map.1 this
  exact ⟨a, e.symm⟩

/-! ### C30 -/

/-- C30: `RunSender(n)` that returns OK returns vectors of length `n`, in any state and with any
    peer. -/
theorem C30_length_sender {E : Env T} {n : Int} {s s' : VState T} {r : SRes T} (h : Returns (runSender E n s) (.ok r, s')) :
    (r.u.length : Int) = n ∧ (r.v.length : Int) = n := by
  rcases runSender_len E n s _ _ h with ⟨a, e, h1⟩ | ⟨e, he, -⟩
  · cases e; exact h1
  · cases he

/-- C30: the same for `RunReceiver`. -/
theorem C30_length_receiver {E : Env T} {n : Int} {s s' : VState T} {r : RRes T} (h : Returns (runReceiver E n s) (.ok r, s')) :
    (r.w.length : Int) = n := by
  rcases runReceiver_len E n s _ _ h with ⟨a, e, h1⟩ | ⟨e, he, -⟩
  · cases e; exact h1
  · cases he

/-- C30, the products of an expansion: the vector and the code generator must have matching sizes, any other sizes are
    undefined behaviour, and the product has one element for each column. -/
theorem C30_product (u : List T) (c : Sparse T) :
    ((u.length : Int) ≠ c.rows → ∃ w, vecMat u c = .ub w) ∧ ∀ r, vecMat u c = .ok r → (u.length : Int) = c.rows ∧ r.length = c.cols.length := by
  constructor
  · intro h
    exact ⟨_, by unfold vecMat; rw [if_pos h]⟩
  · intro r h
    unfold vecMat at h
    split at h
    · cases h
    · exact ⟨by omega, mapOut_len h⟩

/-- Two columns, three rows: with two or four elements it is undefined although the columns use only the first two rows. -/
example : vecMat [2, 3, (5 : BitVec 64)] ⟨3, [[(0, 7), (1, 11)], [(1, 13)]]⟩ = .ok [47, 39] ∧
    (∃ w, vecMat [2, (3 : BitVec 64)] ⟨3, [[(0, 7), (1, 11)], [(1, 13)]]⟩ = .ub w) ∧
    ∃ w, vecMat [2, 3, 5, (8 : BitVec 64)] ⟨3, [[(0, 7), (1, 11)], [(1, 13)]]⟩ = .ub w :=
  ⟨by decide +kernel, (C30_product _ _).1 (by decide), (C30_product _ _).1 (by decide)⟩

/-! ### C31 -/

/-- C31: in the life of an object, whatever the peer does and whichever calls fail: every generated
    element has an id, its position in the list `sMade` of all generated elements; every element
    returned to the caller is the generated element with its id; the ids of everything ever returned
    to the caller and of everything ever used as a seed (`sUsed`) are pairwise different; and the
    current seeds are among what is recorded as used. -/
theorem C31_once_sender {E : Env T} {h : Cuckoo.Hasher} {junk : T} {l : List (Op T × Out (Answer T))} {s : VState T}
    (hl : Lives E (created h junk) l s) :
    ((sentResults l).flatMap (·.ids) ++ s.sUsed).Nodup ∧ (∀ r ∈ sentResults l, FromMade s.sMade r) ∧
    FromMade s.sMade s.sVole ∧ FromMade s.sMade s.sMpfss ∧ s.sVole.ids ⊆ s.sUsed ∧ s.sMpfss.ids ⊆ s.sUsed := by
  obtain ⟨evs, hm, ht⟩ := hl.moves (Shape.new _ _)
  have H := (OnceS.new (MPFSS.State.new h) junk).moves hm
  rw [List.nil_append] at H
  refine ⟨H.nodup.sublist ?_, fun r hr => ?_, H.vole, H.mpfss, H.volUsed, H.mpUsed⟩
  · exact (List.Sublist.append ht.sent (.refl _)).trans (List.sublist_append_left _ _)
  · obtain ⟨ps, h1, h2⟩ := ht.sres r hr
    exact h1.fromMade (fun p hp => H.sent p (h2 p hp))

/-- C31: the same for elements received. (Elements without id are uninitialised; see C39.) -/
theorem C31_once_receiver {E : Env T} {h : Cuckoo.Hasher} {junk : T} {l : List (Op T × Out (Answer T))} {s : VState T}
    (hl : Lives E (created h junk) l s) :
    (((rcvdResults l).flatMap (·.ids) ++ s.rUsed).filterMap id).Nodup ∧ (∀ r ∈ rcvdResults l, FromMadeR s.rMade r) ∧
    FromMadeR s.rMade s.rVole ∧ FromMadeR s.rMade s.rMpfss ∧ s.rVole.ids ⊆ s.rUsed ∧ s.rMpfss.ids ⊆ s.rUsed := by
  obtain ⟨evs, hm, ht⟩ := hl.moves (Shape.new _ _)
  have H := (OnceR.new (MPFSS.State.new h) junk).moves hm
  rw [List.nil_append] at H
  refine ⟨H.nodup.sublist (List.Sublist.filterMap _ ?_), fun r hr => ?_, H.vole, H.mpfss, H.volUsed, H.mpUsed⟩
  · exact (List.Sublist.append ht.rcvd (.refl _)).trans (List.sublist_append_left _ _)
  · obtain ⟨ps, h1, h2⟩ := ht.rres r hr
    exact h1.fromMade (fun p hp => H.rcvd p (h2 p hp))

/-- The ghost lists only grow, so that the ids mean the same in the whole life of an object: what was
    generated or recorded as used at some time is so ever after. -/
theorem C31_ghosts_grow {E : Env T} {h : Cuckoo.Hasher} {junk : T} {l1 l2 : List (Op T × Out (Answer T))} {s s' : VState T}
    (hl : Lives E (created h junk) l1 s) (hl2 : Lives E s l2 s') :
    s.sMade <+: s'.sMade ∧ s.rMade <+: s'.rMade ∧ s.sUsed <+: s'.sUsed ∧ s.rUsed <+: s'.rUsed := by
  obtain ⟨evs, hm, -⟩ := hl.moves (Shape.new _ _)
  obtain ⟨evs2, hm2, -⟩ := hl2.moves ((Shape.new _ _).moves hm)
  clear hm hl hl2
  induction hm2 with
  | refl => exact ⟨List.prefix_refl _, List.prefix_refl _, List.prefix_refl _, List.prefix_refl _⟩
  | step _ hp ih =>
    obtain ⟨h1, h2, h3, h4⟩ := ih
    cases hp <;>
      exact ⟨by first | exact h1 | exact h1.trans (List.prefix_append _ _), by first | exact h2 | exact h2.trans (List.prefix_append _ _),
        by first | exact h3 | exact h3.trans (List.prefix_append _ _), by first | exact h4 | exact h4.trans (List.prefix_append _ _)⟩

/-- An object with many results, of several thousand elements. -/
example : ∃ l s, Lives (toyEnv true 1 30000000) (created toyHasher 0) l s ∧ l.map Prod.fst = exOps true ∧ ∀ x ∈ l, ∃ a, x.2 = .ok a := by
  obtain ⟨l, s, h1, h2, h3⟩ := exLives true
  exact ⟨l, s, h3, h1, h2⟩

/-! ### C32 -/

/-- C32: after a call as a receiver that returns OK, all results up to the next precomputation as a
    receiver have the same `delta`, namely the one given to that call if it is
    `PrecomputeReceiver(batch, delta)`. Calls in between may fail, and there may be calls as a
    sender. -/
theorem C32_delta {E : Env T} {h : Cuckoo.Hasher} {junk : T} {l1 l2 : List (Op T × Out (Answer T))} {op : Op T} {a : Answer T} {s : VState T}
    (hl : Lives E (created h junk) (l1 ++ (op, .ok a) :: l2) s) (hop : op.fwd = false)
    (h2 : ∀ x ∈ l2, x.1.fwd = true ∨ ∃ f n, x.1 = .run f n) :
    ∃ d, (∀ f b d', op = .precompute f b d' → d = d') ∧ (∀ r, a = .rcvd r → r.delta = d) ∧ ∀ r ∈ rcvdResults l2, r.delta = d := by
  obtain ⟨s1, hl1, hl'⟩ := hl.split
  rw [show (op, (Out.ok a : Out (Answer T))) :: l2 = [(op, .ok a)] ++ l2 from rfl] at hl'
  obtain ⟨s2, hx, hl2⟩ := hl'.split
  obtain ⟨evs, hm, -⟩ := hl1.moves (Shape.new _ _)
  have hs1 := (Shape.new _ _).moves hm
  have hr := hx.single
  rw [hop] at hr
  rcases asReceiver_moves E op s1 hs1 _ _ hr with ⟨a', e, ds, ps, hm2, hh, hd, hg⟩ | ⟨e, he, -⟩
  · cases e
    obtain ⟨-, -, h5⟩ := hl2.delta (hs1.moves hm2) hd h2
    refine ⟨s2.rCached.delta, ?_, ?_, h5⟩
    · rintro f b d' rfl
      obtain ⟨u, s3, h6, h7⟩ := VM.returns hr
      rcases precomputeReceiver_loc E b d' s1 _ _ h6 with ⟨-, -, h8⟩ | ⟨e, he, -⟩
      · cases h7; exact h8.delta
      · cases he
    · rintro r rfl; exact hh.2
  · cases he

/-- The hypotheses hold in the example: after the precomputation with 42 two runs follow. -/
example : ∃ l1 l2 a s, Lives (toyEnv true 1 30000000) (created toyHasher 0) (l1 ++ (.precompute false 3000 42, .ok a) :: l2) s ∧
    l2.map Prod.fst = [.run false 10000, .run false 1] := by
  obtain ⟨l, s, h1, h2, h3⟩ := exLives false
  simp only [exOps, List.map_eq_cons_iff] at h1
  obtain ⟨x1, l, rfl, -, x2, l, rfl, -, ⟨op, o⟩, l, rfl, e3, x4, l, rfl, e4, x5, l, rfl, e5, -⟩ := h1
  cases e3
  obtain ⟨a, rfl⟩ : ∃ a, o = .ok a := h2 (Op.precompute false 3000 42, o) (by simp)
  obtain ⟨s1, h4, -⟩ := Lives.split (l1 := [x1, x2, (Op.precompute false 3000 42, .ok a), x4, x5]) (l2 := l) h3
  exact ⟨[x1, x2], [x4, x5], a, s1, h4, by simp [e4, e5]⟩

/-! ### C33 -/

/-- C33: an object that is always the sender. A `RunSender(n)` that returns OK performs exactly
    `⌈(n - cached) / batch_size⌉` expansions (none if enough elements are cached) after the
    precomputation, if it has to make one; what is left over stays in the cache. -/
theorem C33_expansions_sender {E : Env T} {h : Cuckoo.Hasher} {junk : T} {l : List (Op T × Out (Answer T))} {s s' : VState T}
    (hl : Lives E (created h junk) l s) (hrole : ∀ x ∈ l, x.1.fwd = true) (hpre : ∀ x ∈ l, (∃ f n, x.1 = .run f n) ∨ ∃ a, x.2 = .ok a)
    {n : Nat} {r : SRes T} (hr : Returns (runSender E n s) (.ok r, s')) :
    ∃ s1, (s.sDone = true → s1 = s) ∧ (s.sDone = false → Returns (precomputeSender E n s) (.ok (), s1) ∧ s1.sCached.u.length = 0) ∧
      ∀ b : Nat, 1 ≤ b → s1.batch = b →
        s'.log = s1.log ++ List.replicate ((n - s1.sCached.u.length + b - 1) / b) (s1.noise, s1.voleSize, s1.batch + s1.voleSize + s1.mpfssSize) ∧
        s'.sCached.u.length + n = s1.sCached.u.length + (n - s1.sCached.u.length + b - 1) / b * b := by
  have hi := hl.sender (SInv.new h junk) hrole hpre
  have rest : ∀ s1 : VState T, SReady s1 → Returns (senderRest E n s1) (.ok r, s') → ∀ b : Nat, 1 ≤ b → s1.batch = b →
        s'.log = s1.log ++ List.replicate ((n - s1.sCached.u.length + b - 1) / b) (s1.noise, s1.voleSize, s1.batch + s1.voleSize + s1.mpfssSize) ∧
        s'.sCached.u.length + n = s1.sCached.u.length + (n - s1.sCached.u.length + b - 1) / b * b := by
    intro s1 h1 h2 b hb hbat
    rcases senderRest_count E n b hb s1 h1 hbat _ _ h2 with ⟨a, -, h3⟩ | ⟨e, he, -⟩
    · exact h3
    · cases he
  rw [runSender_eq] at hr
  by_cases hd : s.sDone = true
  · rw [if_pos hd] at hr
    exact ⟨s, fun _ => rfl, fun h => absurd (hd.symm.trans h) (by decide), rest s (hi.good hd).ready hr⟩
  · rw [if_neg hd] at hr
    obtain ⟨⟨⟩, s1, h1, h2⟩ := VM.returns hr
    rcases precomputeSender_loc E n s _ _ h1 with ⟨-, -, h3⟩ | ⟨e, he, -⟩
    · exact ⟨s1, fun h => absurd h hd, fun _ => ⟨h1, h3.empty⟩, rest s1 h3.ready h2⟩
    · cases he

/-- C33: the same for a receiver. -/
theorem C33_expansions_receiver {E : Env T} {h : Cuckoo.Hasher} {junk : T} {l : List (Op T × Out (Answer T))} {s s' : VState T}
    (hl : Lives E (created h junk) l s) (hrole : ∀ x ∈ l, x.1.fwd = false) (hpre : ∀ x ∈ l, (∃ f n, x.1 = .run f n) ∨ ∃ a, x.2 = .ok a)
    {n : Nat} {r : RRes T} (hr : Returns (runReceiver E n s) (.ok r, s')) :
    ∃ s1, (s.rDone = true → s1 = s) ∧ (s.rDone = false → Returns (precomputeReceiver' E n s) (.ok (), s1) ∧ s1.rCached.w.length = 0) ∧
      ∀ b : Nat, 1 ≤ b → s1.batch = b →
        s'.log = s1.log ++ List.replicate ((n - s1.rCached.w.length + b - 1) / b) (s1.noise, s1.voleSize, s1.batch + s1.voleSize + s1.mpfssSize) ∧
        s'.rCached.w.length + n = s1.rCached.w.length + (n - s1.rCached.w.length + b - 1) / b * b := by
  have hi := hl.receiver (RInv.new h junk) hrole hpre
  have rest : ∀ s1 : VState T, RReady s1 → Returns (receiverRest E n s1) (.ok r, s') → ∀ b : Nat, 1 ≤ b → s1.batch = b →
        s'.log = s1.log ++ List.replicate ((n - s1.rCached.w.length + b - 1) / b) (s1.noise, s1.voleSize, s1.batch + s1.voleSize + s1.mpfssSize) ∧
        s'.rCached.w.length + n = s1.rCached.w.length + (n - s1.rCached.w.length + b - 1) / b * b := by
    intro s1 h1 h2 b hb hbat
    rcases receiverRest_count E n b hb s1 h1 hbat _ _ h2 with ⟨a, -, h3⟩ | ⟨e, he, -⟩
    · exact h3
    · cases he
  rw [runReceiver_eq] at hr
  by_cases hd : s.rDone = true
  · rw [if_pos hd] at hr
    exact ⟨s, fun _ => rfl, fun h => absurd (hd.symm.trans h) (by decide), rest s (hi.good hd).ready hr⟩
  · rw [if_neg hd] at hr
    obtain ⟨⟨⟩, s1, h1, h2⟩ := VM.returns hr
    rcases precomputeReceiver'_loc E n s _ _ h1 with ⟨-, -, d, h3⟩ | ⟨e, he, -⟩
    · exact ⟨s1, fun h => absurd h hd, fun _ => ⟨h1, h3.empty⟩, rest s1 h3.ready h2⟩
    · cases he

/-- C33: a run after precomputation terminates: with a positive batch size and the loop allowed
    enough iterations (`⌈(n - cached) / batch_size⌉ + 2`; the model's loops are bounded by
    `E.fuel`), the run diverges only if an expansion does. -/
theorem C33_terminates_sender {E : Env T} {h : Cuckoo.Hasher} {junk : T} {l : List (Op T × Out (Answer T))} {s s' : VState T}
    (hl : Lives E (created h junk) l s) (hrole : ∀ x ∈ l, x.1.fwd = true) (hpre : ∀ x ∈ l, (∃ f n, x.1 = .run f n) ∨ ∃ a, x.2 = .ok a)
    (hd : s.sDone = true) {n b : Nat} (hb : 1 ≤ b) (hbat : s.batch = b) (hfuel : (n - s.sCached.u.length + b - 1) / b + 2 ≤ E.fuel)
    (hr : Returns (runSender E n s) (.diverge, s')) : ∃ o nv nm s1 s2, Returns (expandSender E o nv nm s1) (.diverge, s2) := by
  have hi := (hl.sender (SInv.new h junk) hrole hpre).good hd
  rw [runSender_eq, if_pos hd] at hr
  rcases senderRest_cases E n s with ⟨rest, res, hg, e⟩ | ⟨hg, e⟩ | ⟨w, e⟩
  · rw [e] at hr; cases hr
  · rw [e] at hr
    rcases runSenderLoop_diverge E n b hb E.fuel _ 0 { s with pos := s.pos + 1 + 1 } (hi.ready.adj s.mpfss _ rfl) hbat (by omega) (.inl hfuel) _ _ hr with ⟨a, e, -⟩ | ⟨e, he, h1⟩
    · cases e
    · cases he; exact h1 rfl
  · rw [e] at hr; cases hr

/-- C33: the same for a receiver. -/
theorem C33_terminates_receiver {E : Env T} {h : Cuckoo.Hasher} {junk : T} {l : List (Op T × Out (Answer T))} {s s' : VState T}
    (hl : Lives E (created h junk) l s) (hrole : ∀ x ∈ l, x.1.fwd = false) (hpre : ∀ x ∈ l, (∃ f n, x.1 = .run f n) ∨ ∃ a, x.2 = .ok a)
    (hd : s.rDone = true) {n b : Nat} (hb : 1 ≤ b) (hbat : s.batch = b) (hfuel : (n - s.rCached.w.length + b - 1) / b + 2 ≤ E.fuel)
    (hr : Returns (runReceiver E n s) (.diverge, s')) : ∃ o nv nm s1 s2, Returns (expandReceiver E o nv nm s1) (.diverge, s2) := by
  have hi := (hl.receiver (RInv.new h junk) hrole hpre).good hd
  rw [runReceiver_eq, if_pos hd] at hr
  rcases receiverRest_cases E n s with ⟨rest, res, hg, e⟩ | ⟨hg, e⟩ | ⟨-, w, e⟩
  · rw [e] at hr; cases hr
  · rw [e] at hr
    rcases runReceiverLoop_diverge E n b hb E.fuel _ 0 { s with pos := s.pos + 1 } (hi.ready.adj s.mpfss _ rfl) hbat (by omega) (.inl hfuel) _ _ hr with ⟨a, e, -⟩ | ⟨e, he, h1⟩
    · cases e
    · cases he; exact h1 rfl
  · rw [e] at hr; cases hr

end VOLE
end DVO
