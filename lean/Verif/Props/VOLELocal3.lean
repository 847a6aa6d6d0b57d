/-
Properties of one party of the vector OLE, whatever the other party does, continued (examples for C33;
C39).
-/
import Verif.Props.VOLELocal2

namespace DVO.VOLE
open Net MPFSS
variable {T : Type} [Scalar T]

/-- Calls with a peer that makes the matching calls. -/
theorem toy_play (f : Bool) (ops : List (Op (BitVec 64))) (h1 : ∀ op ∈ ops, op.Valid 30000000) (h2 : ∀ op ∈ ops, op.fwd = f) :
    ∃ l s, l.map Prod.fst = ops ∧ (∀ x ∈ l, ∃ a, x.2 = .ok a) ∧ Lives exA (created toyHasher 0) l s := by
  obtain ⟨as, s, bs, r, va, vb, h, -, -⟩ := C60_progress ex_together (toy_smooth _ _ _ (by omega)) (toy_smooth _ _ _ (by omega)) 0 7 ops
    (fun op hop => ⟨h1 op hop, h1 op hop⟩) (by cases f; exact .inr h2; exact .inl h2)
  obtain ⟨l, h1, h2, h3⟩ := Lives.play (.new) h.returns
  refine ⟨l, s, h1, fun x hx => ?_, h3⟩
  have : x.2 ∈ l.map Prod.snd := List.mem_map_of_mem hx
  rw [h2] at this
  obtain ⟨a, -, e⟩ := List.mem_map.1 this
  exact ⟨a, e.symm⟩

theorem toy_sizes {b : Int} {s s' : VState (BitVec 64)} (hb : 1 ≤ b) (hm : numBuckets s'.mpfss.hasher s'.noise = .ok s'.mpfssSize) (hh : s'.mpfss.hasher = toyHasher)
    (h : Chosen b s s') : s'.mpfssSize = 2000 ∧ 1 ≤ s'.batch ∧ 1 ≤ s'.voleSize := by
  obtain ⟨j, ll, ⟨hn, hr⟩, -⟩ := h.row
  have hn' : 0 < s'.noise := by
    have := List.mem_of_getElem? (rd_some hn)
    simp only [noiseSizes, List.mem_cons, List.not_mem_nil, or_false] at this
    omega
  rw [hh, show s'.noise = ((s'.noise.toNat : Nat) : Int) by omega, toy_buckets (by omega)] at hm
  have hm := Out.ok.inj hm
  have h4 : 1 ≤ s'.voleSize ∧ s'.voleSize ≤ 588160 := by
    have := List.mem_of_getElem? (rd_some hr)
    simp only [seedSizes, List.mem_cons, List.not_mem_nil, or_false] at this
    omega
  have := h.batch
  omega

/-- C33 in numbers: after a precomputation with batch size 5, a run for 100001 elements expands 20001
    times, and 4 elements remain in the cache. -/
theorem C33_example : ∃ s s' r, Returns (precomputeSender exA 5 (created toyHasher 0)) (.ok (), s) ∧ Returns (runSender exA ((100001 : Nat) : Int) s) (.ok r, s') ∧
    s'.log.length = s.log.length + 20001 ∧ s'.sCached.u.length = 4 := by
  obtain ⟨l, s', h1, h2, h3⟩ := toy_play true [.precompute true 5 0, .run true 100001] (by
    intro op hop
    simp only [List.mem_cons, List.not_mem_nil, or_false] at hop
    rcases hop with rfl | rfl <;> simp [Op.Valid]) (by
    intro op hop
    simp only [List.mem_cons, List.not_mem_nil, or_false] at hop
    rcases hop with rfl | rfl <;> rfl)
  simp only [List.map_eq_cons_iff, List.map_eq_nil_iff] at h1
  obtain ⟨⟨op1, o1⟩, l, rfl, e1, ⟨op2, o2⟩, l, rfl, e2, rfl⟩ := h1
  dsimp only at e1 e2
  subst e1 e2
  obtain ⟨a1, rfl⟩ : ∃ a, o1 = .ok a := h2 (Op.precompute true 5 0, o1) (by simp)
  obtain ⟨a2, rfl⟩ : ∃ a, o2 = .ok a := h2 (Op.run true 100001, o2) (by simp)
  obtain ⟨s, h4, h5⟩ := Lives.split (l1 := [(Op.precompute true 5 0, .ok a1)]) (l2 := [(Op.run true 100001, .ok a2)]) h3
  have r1 := h4.single
  rw [if_pos (by rfl)] at r1
  have r2 := h5.single
  rw [if_pos (by rfl)] at r2
  obtain ⟨⟨⟩, s1, r1, q⟩ := VM.returns (p := precomputeSender exA 5) r1
  cases q
  obtain ⟨r, s2, r2, q⟩ := VM.returns (p := runSender exA ((100001 : Nat) : Int)) r2
  cases q
  obtain ⟨s3, e3, -, e4⟩ := C33_expansions_sender h4 (fun x hx => by simp only [List.mem_singleton] at hx; subst hx; rfl) (fun x hx => .inr ⟨Answer.done, by simp only [List.mem_singleton] at hx; subst hx; rfl⟩) r2
  rcases precomputeSender_loc exA 5 _ _ _ r1 with ⟨-, -, p1⟩ | ⟨e, he, -⟩
  swap; · cases he
  have e3 := e3 p1.sDone
  subst e3
  have hv := toy_row (by omega) rfl p1.chosen
  obtain ⟨hj, -, -⟩ := toy_sizes p1.pos p1.ready.buckets p1.hasher p1.chosen
  have hb := p1.chosen.batch
  obtain ⟨e4, e5⟩ := e4 5 (by omega) (by omega)
  have he := p1.empty
  refine ⟨s3, s', r, r1, r2, ?_, ?_⟩
  · rw [e4, he, List.length_append, List.length_replicate]
  · rw [he] at e5; omega

/-! ### C39 -/

/-- C39, the part that is true: as long as all calls as a receiver return OK, every element returned
    to the caller is one that was generated. -/
theorem C39_generated_partial {E : Env T} {h : Cuckoo.Hasher} {junk : T} {l : List (Op T × Out (Answer T))} {s : VState T}
    (hl : Lives E (created h junk) l s) (hok : ∀ x ∈ l, x.1.fwd = false → ∃ a, x.2 = .ok a) :
    ∀ r ∈ rcvdResults l, FromMadeR s.rMade r ∧ none ∉ r.ids := by
  obtain ⟨evs, hm, ht⟩ := hl.clean (Shape.new _ _) hok
  have H : NoJunk evs s := by
    have := NoJunk.moves (evs := []) hm ⟨by simp [rcvdIds], by simp [VState.new]⟩
    rwa [List.nil_append] at this
  intro r hr
  refine ⟨(C31_once_receiver hl).2.1 r hr, fun hn => H.1 (ht.rcvd.subset ?_)⟩
  exact List.mem_flatMap.2 ⟨r, hr, hn⟩

/-- The hypotheses hold in the example. -/
example : ∃ l s, Lives exA (created toyHasher 0) l s ∧ l.map Prod.fst = exOps false ∧ ∀ x ∈ l, x.1.fwd = false → ∃ a, x.2 = .ok a := by
  obtain ⟨l, s, h1, h2, h3⟩ := exLives false
  exact ⟨l, s, h3, h1, fun x hx _ => h2 x hx⟩

/-- The MPFSS step of an expansion fails if the connection is closed. -/
theorem value_closed (aes fl c sec key seed thr) (st : State) (x : T) (n : Int) (w out : List T) :
    ∃ r, Returns (runValueProviderVectorOLE aes fl c sec key seed thr st x n w out) r ∧ ∀ a, r.status ≠ .ok a := by
  unfold runValueProviderVectorOLE
  split
  · exact ⟨_, .ret _, by simp⟩
  · split
    · rename_i a st' _
      refine ⟨⟨.throws "connection closed", out, st'⟩, .recv _ _ Msg.closed _ ?_, by simp⟩
      exact .ret _
    · rename_i e st' hne he
      exact ⟨_, .ret _, fun a ha => hne a ha⟩

/-- An expansion during which the connection is closed leaves uninitialised elements in the cache. -/
theorem expandReceiver_closed (E : Env T) {o : Int} (nv nm : Int) {s : VState T} (h0 : 0 ≤ o) (h1 : s.code.rows = s.rVole.w.length) (h2 : (s.code.cols.length : Int) = o) :
    ∃ e s', Returns (expandReceiver E o nv nm s) (e, s') ∧ (∀ a, e ≠ .ok a) ∧ s'.rDone = s.rDone ∧
      s'.rCached.w = s.rCached.w ++ (List.range o.toNat).map (E.rand s.pos).elems ∧ s'.rCached.ids = s.rCached.ids ++ List.replicate o.toNat none := by
  unfold expandReceiver
  have e1 : ∀ r : Rand T, vecOf r o = .ok ((List.range o.toNat).map r.elems) := fun r => by unfold vecOf; rw [if_neg (by omega)]
  rw [VM.get_bind, if_neg (by omega), VM.draw_bind, e1, VM.lift_ok_bind, VM.modify_bind, VM.draw_bind, e1, VM.lift_ok_bind, VM.bind_apply]
  obtain ⟨⟨st, out, mp⟩, hr, hne⟩ := value_closed E.aes E.fl E.c (E.sec.map (· * 2)) (E.rand (s.pos + 1)).key (E.rand (s.pos + 1)).seed E.thr s.mpfss s.rMpfss.delta s.noise s.rMpfss.w
    ((List.range o.toNat).map (E.rand (s.pos + 1)).elems)
  cases st with
  | ok a => exact absurd rfl (hne a)
  | err c m => exact ⟨.err c m, _, Returns.of_bind (Returns.of_bind hr (.ret _)) (.ret _), by simp, rfl, rfl, rfl⟩
  | throws m => exact ⟨.throws m, _, Returns.of_bind (Returns.of_bind hr (.ret _)) (.ret _), by simp, rfl, rfl, rfl⟩
  | ub w => exact ⟨.ub w, _, Returns.of_bind (Returns.of_bind hr (.ret _)) (.ret _), by simp, rfl, rfl, rfl⟩
  | diverge => exact ⟨.diverge, _, Returns.of_bind (Returns.of_bind hr (.ret _)) (.ret _), by simp, rfl, rfl, rfl⟩

theorem receiverRest_short (E : Env T) {n : Int} {s : VState T} (h : (s.rCached.w.length : Int) < n) :
    receiverRest E n s = runReceiverLoop E n E.fuel ⟨(List.range n.toNat).map (E.rand s.pos).elems, s.rCached.delta, List.replicate n.toNat none⟩ 0 { s with pos := s.pos + 1 } := by
  rcases receiverRest_cases E n s with ⟨rest, res, hg, e⟩ | ⟨hg, e⟩ | ⟨h0, w, e⟩
  · obtain ⟨g1, g2, -⟩ := getReceiver_ok hg; omega
  · exact e
  · omega

/-- A run during which the connection is closed leaves uninitialised elements in the cache. -/
theorem runReceiver_closed (E : Env T) {n : Nat} (hn : 0 < n) {s : VState T} (hf : 1 ≤ E.fuel) (hd : s.rDone = true) (he : s.rCached.w = []) (hs : RReady s)
    (h0 : 0 ≤ s.batch + s.voleSize + s.mpfssSize) :
    ∃ e s', Returns (runReceiver E n s) (e, s') ∧ (∀ a, e ≠ .ok a) ∧ s'.rDone = true ∧
      s'.rCached.w = (List.range (s.batch + s.voleSize + s.mpfssSize).toNat).map (E.rand (s.pos + 1)).elems ∧
      s'.rCached.ids = List.replicate (s.batch + s.voleSize + s.mpfssSize).toNat none := by
  rw [runReceiver_eq, if_pos hd, receiverRest_short E (by rw [he]; simpa using hn)]
  obtain ⟨f, hf⟩ : ∃ f, E.fuel = f + 1 := ⟨E.fuel - 1, by omega⟩
  rw [hf]
  unfold runReceiverLoop
  rw [if_pos (by omega), VM.get_bind]
  dsimp only
  rw [if_pos (by simp [he]), he]
  have seg : ∀ l : List T, setSeg l 0 [] = .ok l := by intro l; simp [setSeg]
  rw [seg]
  simp only [VM.lift_ok_bind, VM.bind_assoc, VM.modify_bind, VM.pure_bind']
  rw [if_pos (by simpa using hn), VM.get_bind]
  obtain ⟨e, s', h1, h2, h3, h4, h5⟩ := expandReceiver_closed E (o := s.batch + s.voleSize + s.mpfssSize) s.voleSize s.mpfssSize
    (s := { s with rCached := ⟨[], s.rCached.delta, []⟩, pos := s.pos + 1 }) h0 (by have := hs.vw; have := hs.rows; dsimp only; omega) hs.cols
  have key : ∀ k : Unit → VM T (RRes T), ∃ e' : Out (RRes T), Returns ((expandReceiver E (s.batch + s.voleSize + s.mpfssSize) s.voleSize s.mpfssSize >>= k)
      { s with rCached := ⟨[], s.rCached.delta, []⟩, pos := s.pos + 1 }) (e', s') ∧ ∀ a, e' ≠ .ok a := by
    intro k
    cases e with
    | ok a => exact absurd rfl (h2 a)
    | err c m => exact ⟨.err c m, Returns.of_bind h1 (.ret _), by simp⟩
    | throws m => exact ⟨.throws m, Returns.of_bind h1 (.ret _), by simp⟩
    | ub w => exact ⟨.ub w, Returns.of_bind h1 (.ret _), by simp⟩
    | diverge => exact ⟨.diverge, Returns.of_bind h1 (.ret _), by simp⟩
  obtain ⟨e', h6, h7⟩ := key _
  exact ⟨e', s', h6, h7, h3.trans hd, by rw [h4]; rfl, by rw [h5]; rfl⟩

theorem Lives.runR {E : Env T} {s0 s s' : VState T} {l : List (Op T × Out (Answer T))} {n : Int} {r : RRes T} (hl : Lives E s0 l s)
    (h : Returns (runReceiver E n s) (.ok r, s')) : Lives E s0 (l ++ [(.run false n, .ok (.rcvd r))]) s' :=
  hl.call (op := .run false n) (VM.returns_pure Answer.rcvd h)

theorem Lives.runR_fail {E : Env T} {s0 s s' : VState T} {l : List (Op T × Out (Answer T))} {n : Int} {e : Out (RRes T)} (hl : Lives E s0 l s)
    (h : Returns (runReceiver E n s) (e, s')) (he : ∀ a, e ≠ .ok a) : ∃ e', Lives E s0 (l ++ [(.run false n, e')]) s' ∧ ∀ a, e' ≠ .ok a := by
  have : ∃ e' : Out (Answer T), Returns ((runReceiver E n >>= fun r => pure (Answer.rcvd r)) s) (e', s') ∧ ∀ a, e' ≠ .ok a := by
    cases e with
    | ok a => exact absurd rfl (he a)
    | err c m => exact ⟨.err c m, Returns.of_bind h (.ret _), by simp⟩
    | throws m => exact ⟨.throws m, Returns.of_bind h (.ret _), by simp⟩
    | ub w => exact ⟨.ub w, Returns.of_bind h (.ret _), by simp⟩
    | diverge => exact ⟨.diverge, Returns.of_bind h (.ret _), by simp⟩
  obtain ⟨e', h1, h2⟩ := this
  exact ⟨e', hl.call (op := .run false n) h1, h2⟩

/-- C39 is false: a receiver precomputes successfully (with an honest peer), a run fails because the
    connection is closed, and the next run returns OK, with an uninitialised element. -/
theorem C39_false : ∃ (l : List (Op (BitVec 64) × Out (Answer (BitVec 64)))) (s : VState (BitVec 64)) (e : Out (Answer (BitVec 64))) (r : RRes (BitVec 64)),
    Lives exA (created toyHasher 0) l s ∧ (∀ a, e ≠ .ok a) ∧
    l = [(.precompute false 3000 6, .ok .done), (.run false 5, e), (.run false 1, .ok (.rcvd r))] ∧
    r.w.length = 1 ∧ r.ids = [none] ∧ ∃ k j, r.w = [(exA.rand k).elems j] := by
  have h1 := precompute_pair (P := fun _ => False) (fun o x y => exE o x (fun z => y z.symm)) ex_together.swap (batch := 3000) (by omega) (.inl (by omega)) (d := 6)
    (s := created toyHasher 0) (r := created toyHasher 0) (Coherent.new _) (Coherent.new _) rfl
  obtain ⟨⟨⟩, r1, ⟨⟩, s1, va, vb, c1, -⟩ := h1.false
  have h1 := c1.returnsRight
  rcases precomputeReceiver_loc exA 3000 6 _ _ _ h1 with ⟨-, -, p1⟩ | ⟨e, he, -⟩
  swap; · cases he
  obtain ⟨hm, hb, hv⟩ := toy_sizes p1.pos p1.ready.buckets p1.hasher p1.chosen
  obtain ⟨e, s2, h2, h3, h4, h5, h6⟩ := runReceiver_closed exA (n := 5) (by omega) (by unfold exA toyEnv; dsimp only; omega) p1.rDone
    (List.length_eq_zero_iff.1 p1.empty) p1.ready (by omega)
  obtain ⟨o, ho⟩ : ∃ o : Nat, (s1.batch + s1.voleSize + s1.mpfssSize).toNat = o + 1 := ⟨(s1.batch + s1.voleSize + s1.mpfssSize).toNat - 1, by omega⟩
  rw [ho] at h5 h6
  have hlen : s2.rCached.w.length = o + 1 := by rw [h5]; simp
  have hilen : s2.rCached.ids.length = o + 1 := by rw [h6]; simp
  obtain ⟨e3, h7, h8⟩ := Lives.runR_fail (Lives.new.precomputeR h1) h2 h3
  have hg : getReceiver s2.rCached 1 = .ok (⟨s2.rCached.w.take o, s2.rCached.delta, s2.rCached.ids.take o⟩, ⟨s2.rCached.w.drop o, s2.rCached.delta, s2.rCached.ids.drop o⟩) := by
    unfold getReceiver splitTail
    rw [if_neg (by omega), if_neg (by omega), Out.ok_bind, hlen, hilen]
    rfl
  have hrun : runReceiver exA 1 s2 = .ret (.ok ⟨s2.rCached.w.drop o, s2.rCached.delta, s2.rCached.ids.drop o⟩, { s2 with rCached := ⟨s2.rCached.w.take o, s2.rCached.delta, s2.rCached.ids.take o⟩ }) := by
    rw [runReceiver_eq, if_pos h4]
    unfold receiverRest
    rw [VM.get_bind, hg]
    rfl
  refine ⟨_, _, e3, _, h7.runR (by rw [hrun]; exact .ret _), h8, rfl, by simp [hlen], ?_, s1.pos + 1, o, ?_⟩
  · dsimp only; rw [h6]; simp
  · dsimp only; rw [h5, List.range_succ, List.map_append, List.drop_left' (by simp)]; rfl

end DVO.VOLE
