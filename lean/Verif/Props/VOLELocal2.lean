/-
Properties of one party of the vector OLE, whatever the other party does, continued (C35 - C37).
-/
import Verif.Props.VOLELocal

namespace DVO

theorem Net.Steps.returnsRight {M α β : Type} {n : Nat} {st st' : Net M α β} (h : Net.Steps n st st') {b : β} (hq : st'.q = .ret b) : Returns st.q b := by
  induction h with
  | zero s => rw [hq]; exact .ret b
  | succ hs _ ih =>
    have := ih hq
    cases hs with
    | pSend => exact this
    | qSend => exact .send _ _ _ _ this
    | pRecv ch m => exact this
    | qRecv ch m => exact .recv _ _ m _ this
    | otPQ ch kd ms cs => exact .otRecv _ _ _ _ (otResult ms cs) _ this
    | otQP ch kd ms cs => exact .otSend _ _ _ _ _ this

theorem Net.Computes.returnsRight {M α β : Type} {p : Proc M α} {q : Proc M β} {a : α} {b : β} {va vb} (h : Net.Computes p q a b va vb) : Returns q b := by
  obtain ⟨n, hn⟩ := h.joint
  exact hn.returnsRight (b := b) rfl

namespace VOLE
open Net MPFSS
variable {T : Type} [Scalar T]

omit [Scalar T] in
/-- Adding a result to the end. -/
theorem VM.returns_pure {α β : Type} {p : VM T α} {s s' : VState T} {a : α} (f : α → β) (h : Returns (p s) (.ok a, s')) :
    Returns ((p >>= fun a => pure (f a)) s) (.ok (f a), s') := Returns.of_bind h (.ret _)

theorem Lives.precomputeS {E : Env T} {s0 s s' : VState T} {l : List (Op T × Out (Answer T))} {b : Int} (d : T) (hl : Lives E s0 l s)
    (h : Returns (precomputeSender E b s) (.ok (), s')) : Lives E s0 (l ++ [(.precompute true b d, .ok .done)]) s' :=
  hl.call (op := .precompute true b d) (VM.returns_pure (fun _ => Answer.done) h)

theorem Lives.precomputeR {E : Env T} {s0 s s' : VState T} {l : List (Op T × Out (Answer T))} {b : Int} {d : T} (hl : Lives E s0 l s)
    (h : Returns (precomputeReceiver E b d s) (.ok (), s')) : Lives E s0 (l ++ [(.precompute false b d, .ok .done)]) s' :=
  hl.call (op := .precompute false b d) (VM.returns_pure (fun _ => Answer.done) h)

theorem asSender_err {E : Env T} {n : Int} {s s' : VState T} {c : Code} {m : String} (f : Bool) (h : runSender E n s = .ret (.err c m, s')) :
    Returns (asSender E (.run f n) s) (.err c m, s') := by
  show Returns ((runSender E n >>= fun r => pure (Answer.sent r)) s) _
  rw [VM.bind_apply, h]
  exact .ret _

/-! ### C35 -/

/-- C35, for an object that is always the sender, against any peer: as long as no explicit
    precomputation has failed (runs may have failed), no call returns one of the errors of the sanity
    checks in `ExpandSender`. (`NoStatus`: the standard library does not return `absl` status
    values.) -/
theorem C35_no_sanity_error_sender_partial {E : Env T} {h : Cuckoo.Hasher} {junk : T} {l : List (Op T × Out (Answer T))} {s s' : VState T}
    (hl : Lives E (created h junk) l s) (hrole : ∀ x ∈ l, x.1.fwd = true) (hpre : ∀ x ∈ l, (∃ f n, x.1 = .run f n) ∨ ∃ a, x.2 = .ok a)
    (hlib : E.lib.NoStatus) {op : Op T} {c : Code} {m : String} (hr : Returns (asSender E op s) (.err c m, s')) :
    m ≠ "Both seeds must have the same size" ∧ m ≠ "Code generator has the wrong dimensions" := by
  have hi := hl.sender (SInv.new h junk) hrole hpre
  rcases asSender_inv E op s hi _ _ hr with ⟨a, e, -⟩ | ⟨e, he, h1, -⟩
  · cases e
  · cases he
    have := h1 hlib c m rfl
    exact ⟨fun h => this (.inl h), fun h => this (.inr h)⟩

/-- C35, for an object that is always the receiver. -/
theorem C35_no_sanity_error_receiver_partial {E : Env T} {h : Cuckoo.Hasher} {junk : T} {l : List (Op T × Out (Answer T))} {s s' : VState T}
    (hl : Lives E (created h junk) l s) (hrole : ∀ x ∈ l, x.1.fwd = false) (hpre : ∀ x ∈ l, (∃ f n, x.1 = .run f n) ∨ ∃ a, x.2 = .ok a)
    (hlib : E.lib.NoStatus) {op : Op T} {c : Code} {m : String} (hr : Returns (asReceiver E op s) (.err c m, s')) :
    m ≠ "Both seeds must have the same size" ∧ m ≠ "Code generator has the wrong dimensions" := by
  have hi := hl.receiver (RInv.new h junk) hrole hpre
  rcases asReceiver_inv E op s hi _ _ hr with ⟨a, e, -⟩ | ⟨e, he, h1, -⟩
  · cases e
  · cases he
    have := h1 hlib c m rfl
    exact ⟨fun h => this (.inl h), fun h => this (.inr h)⟩

/-- C35: after a precomputation the MPFSS seed always has `NumBuckets(num_noise_indices)` elements,
    and the VOLE seed has as many as the code generator has rows. -/
theorem C35_seeds_sender {E : Env T} {h : Cuckoo.Hasher} {junk : T} {l : List (Op T × Out (Answer T))} {s : VState T}
    (hl : Lives E (created h junk) l s) (hrole : ∀ x ∈ l, x.1.fwd = true) (hpre : ∀ x ∈ l, (∃ f n, x.1 = .run f n) ∨ ∃ a, x.2 = .ok a)
    (hd : s.sDone = true) : numBuckets h s.noise = .ok (s.sMpfss.u.length : Int) ∧ s.sMpfss.v.length = s.sMpfss.u.length ∧
      s.code.rows = s.sVole.u.length ∧ s.sVole.v.length = s.sVole.u.length := by
  have hi := hl.sender (SInv.new h junk) hrole hpre
  obtain ⟨⟨h1, h2, h3, h4, h5⟩, h6, -, -⟩ := (hi.good hd).ready
  rw [hi.hasher] at h5
  exact ⟨by rw [h5, h3], by omega, by omega, by omega⟩

/-- C35: the same for a receiver. -/
theorem C35_seeds_receiver {E : Env T} {h : Cuckoo.Hasher} {junk : T} {l : List (Op T × Out (Answer T))} {s : VState T}
    (hl : Lives E (created h junk) l s) (hrole : ∀ x ∈ l, x.1.fwd = false) (hpre : ∀ x ∈ l, (∃ f n, x.1 = .run f n) ∨ ∃ a, x.2 = .ok a)
    (hd : s.rDone = true) : numBuckets h s.noise = .ok (s.rMpfss.w.length : Int) ∧ s.code.rows = s.rVole.w.length := by
  have hi := hl.receiver (RInv.new h junk) hrole hpre
  obtain ⟨⟨h1, h2, h3, -, -⟩, h6, -⟩ := (hi.good hd).ready
  rw [hi.hasher] at h3
  exact ⟨by rw [h3, h2], by omega⟩

/-- The library used in the examples returns no status. -/
theorem toy_noStatus : toyLib.NoStatus := by intro aes g lo hi c m h; cases h

/-- The hypotheses hold in the example, and the object has made a precomputation. -/
example : ∃ l s, Lives (toyEnv true 1 30000000) (created toyHasher 0) l s ∧ (∀ x ∈ l, x.1.fwd = true) ∧ (∀ x ∈ l, ∃ a, x.2 = .ok a) ∧
    l.map Prod.fst = exOps true ∧ (toyEnv true 1 30000000).lib.NoStatus := by
  obtain ⟨l, s, h1, h2, h3⟩ := exLives true
  refine ⟨l, s, h3, fun x hx => ?_, h2, h1, toy_noStatus⟩
  have : x.1 ∈ l.map Prod.fst := List.mem_map_of_mem hx
  rw [h1] at this
  simp only [exOps, List.mem_cons, List.not_mem_nil, or_false] at this
  rcases this with h | h | h | h | h | h | h | h <;> rw [h] <;> rfl

/-! An object used in both roles. -/

def exA : Env (BitVec 64) := toyEnv true 1 30000000
def exB : Env (BitVec 64) := toyEnv false 2 30000000

theorem ex_together : Together toyHasher exA exB := toy_together _ _ _ _

theorem exE (o : Out Unit) : Expected o → ¬ (Smooth toyHasher exA ∧ Smooth toyHasher exB) → False :=
  fun _ h => h ⟨toy_smooth _ _ _ (by omega), toy_smooth _ _ _ (by omega)⟩

/-- The first party precomputes as a sender with batch size 1 and then as a receiver with batch size
    3000; the second party makes the matching calls. Everything succeeds. -/
theorem mixed_precompute : ∃ s1 r1 s2 r2 va vb va' vb',
    Computes (precomputeSender exA 1 (created toyHasher 0)) (precomputeReceiver exB 1 5 (created toyHasher 0)) (.ok (), s1) (.ok (), r1) va vb ∧
    Computes (precomputeSender exB 3000 r1) (precomputeReceiver exA 3000 6 s1) (.ok (), r2) (.ok (), s2) va' vb' ∧ RFrame s1 s2 := by
  have h1 := precompute_pair (P := fun _ => False) exE ex_together (batch := 1) (by omega) (.inl (by omega)) (d := 5)
    (s := created toyHasher 0) (r := created toyHasher 0) (Coherent.new _) (Coherent.new _) rfl
  obtain ⟨⟨⟩, s1, ⟨⟩, r1, va, vb, c1, -, F1, -, -⟩ := h1.false
  have h2 := precompute_pair (P := fun _ => False) (fun o x y => exE o x (fun z => y z.symm)) ex_together.swap (batch := 3000) (by omega) (.inl (by omega)) (d := 6)
    F1.cohR F1.cohS F1.log.symm
  obtain ⟨⟨⟩, r2, ⟨⟩, s2, va', vb', c2, -, -, -, f2⟩ := h2.false
  exact ⟨s1, r1, s2, r2, va, vb, va', vb', c1, c2, f2⟩

theorem toy_buckets {t : Nat} (ht : 0 < t) : numBuckets toyHasher t = .ok 2000 := by
  unfold numBuckets Cuckoo.getOptimalNumberOfBuckets
  rw [if_neg (by omega), if_neg (by omega), if_pos (.inl rfl)]
  rfl

/-- The row of the parameters that `Precompute` chooses for a small batch with 2000 buckets. -/
theorem toy_row {b : Int} {s s' : VState (BitVec 64)} (hb : b ≤ 507) (hh : s.mpfss.hasher = toyHasher) (h : Chosen b s s') : s'.voleSize = 1589 := by
  obtain ⟨j, l, ⟨-, hr⟩, -, -, -, hk⟩ := h.row
  cases j with
  | zero => exact (Out.ok.inj hr).symm
  | succ j =>
    obtain ⟨o, t, v, m, h1, h2, h3, h4, h5⟩ := hk 0 (by omega)
    cases h1; cases h2; cases h3
    rw [hh, show (98 : Int) = ((98 : Nat) : Int) from rfl, toy_buckets (by omega)] at h4
    cases h4
    omega

theorem toy_row' {b : Int} {s s' : VState (BitVec 64)} (hb : 508 ≤ b) (hf : numBuckets s'.mpfss.hasher s'.noise = .ok s'.mpfssSize)
    (hh' : s'.mpfss.hasher = toyHasher) (h : Chosen b s s') : s'.voleSize ≠ 1589 := by
  obtain ⟨j, l, ⟨hn, hr⟩, -, -, hj, -⟩ := h.row
  rcases hj with rfl | ⟨o, ho, hle⟩
  · have hr := Out.ok.inj hr
    omega
  · cases j with
    | zero =>
      have ho := Out.ok.inj ho
      have hr := Out.ok.inj hr
      rw [← Out.ok.inj hn] at hf
      rw [hh', show (98 : Int) = ((98 : Nat) : Int) from rfl, toy_buckets (by omega)] at hf
      have hf := Out.ok.inj hf
      omega
    | succ j =>
      intro e
      rw [e] at hr
      rcases j with - | - | - | - | j <;> cases hr

theorem senderRest_short (E : Env T) {n : Int} {s : VState T} (h : (s.sCached.u.length : Int) < n) :
    senderRest E n s = runSenderLoop E n E.fuel ⟨(List.range n.toNat).map (E.rand s.pos).elems,
      (List.range n.toNat).map (E.rand (s.pos + 1)).elems, List.replicate n.toNat none⟩ 0 { s with pos := s.pos + 1 + 1 } := by
  unfold senderRest
  rw [VM.get_bind]
  have e : getSender s.sCached n = .err .outOfRange "Requested cached sender elements" := by unfold getSender; rw [if_pos h]
  have e1 : ∀ r : Rand T, vecOf r n = .ok ((List.range n.toNat).map r.elems) := fun r => by unfold vecOf; rw [if_neg (by omega)]
  rw [e]
  show ((VM.draw E >>= fun ru => _) s) = _
  rw [VM.draw_bind, e1, VM.lift_ok_bind, VM.draw_bind, e1, VM.lift_ok_bind]

/-- `ExpandSender` complains about the dimensions. -/
theorem runSender_wrongDims (E : Env T) (n : Nat) (hn : 0 < n) (s : VState T) (hf : 1 ≤ E.fuel) (hd : s.sDone = true) (hu : s.sCached.u = []) (hv : s.sCached.v = [])
    (h1 : s.sVole.u.length = s.sVole.v.length) (h2 : s.code.rows ≠ s.sVole.u.length) :
    ∃ s', runSender E n s = .ret (.err .internal "Code generator has the wrong dimensions", s') := by
  rw [runSender_eq, if_pos hd, senderRest_short E (by rw [hu]; simpa using hn)]
  obtain ⟨f, hf⟩ : ∃ f, E.fuel = f + 1 := ⟨E.fuel - 1, by omega⟩
  rw [hf]
  unfold runSenderLoop
  rw [if_pos (by omega), VM.get_bind]
  dsimp only
  rw [if_pos (by simp [hu]), hu, hv]
  refine ⟨{ s with pos := s.pos + 1 + 1, sCached := ⟨[], [], []⟩ }, ?_⟩
  have seg : ∀ l : List T, setSeg l 0 [] = .ok l := by intro l; simp [setSeg]
  rw [seg, seg]
  simp only [VM.lift_ok_bind, VM.bind_assoc, VM.modify_bind, VM.pure_bind']
  rw [if_pos (by simpa using hn), VM.get_bind]
  unfold expandSender
  rw [VM.bind_assoc, VM.get_bind]
  rw [if_neg (by simpa using h1), if_pos (.inl h2)]
  rfl

/-- C35 fails for an object that is used in both roles: the two directions share the code generator,
    the sizes and the batch size. After precomputations in both directions with different batch sizes
    (all of which succeed, with a peer that makes the matching calls), `RunSender` returns INTERNAL. -/
theorem C35_mixed_roles_false : ∃ (l : List (Op (BitVec 64) × Out (Answer (BitVec 64)))) (s s' : VState (BitVec 64)),
    Lives exA (created toyHasher 0) l s ∧ (∀ x ∈ l, ∃ a, x.2 = .ok a) ∧ l.map Prod.fst = [.precompute true 1 5, .precompute false 3000 6] ∧
    Returns (asSender exA (.run true 5) s) (.err .internal "Code generator has the wrong dimensions", s') := by
  obtain ⟨s1, r1, s2, r2, va, vb, va', vb', c1, c2, F⟩ := mixed_precompute
  have h1 := c1.returns
  have h2 := c2.returnsRight
  rcases precomputeSender_loc exA 1 _ _ _ h1 with ⟨-, -, p1⟩ | ⟨e, he, -⟩
  swap; · cases he
  rcases precomputeReceiver_loc exA 3000 6 _ _ _ h2 with ⟨-, -, p2⟩ | ⟨e, he, -⟩
  swap; · cases he
  have hh1 : s1.mpfss.hasher = toyHasher := p1.hasher
  have v1 := toy_row (by omega) rfl p1.chosen
  have v2 := toy_row' (by omega) p2.ready.buckets (p2.hasher.trans hh1) p2.chosen
  have hu : s2.sCached.u = [] := by rw [F.sCached]; exact List.length_eq_zero_iff.1 p1.empty
  have hv : s2.sCached.v = [] := by rw [F.sCached]; exact List.length_eq_zero_iff.1 (p1.ready.uv.trans p1.empty)
  have e1 := p1.ready.vu
  have e2 := p1.ready.vv
  obtain ⟨s', e⟩ := runSender_wrongDims exA 5 (by omega) s2 (by unfold exA toyEnv; dsimp only; omega) (F.sDone.trans p1.sDone) hu hv
    (by rw [F.sVole]; omega) (by rw [p2.ready.rows, F.sVole, e1, v1]; exact v2)
  refine ⟨_, s2, s', (Lives.new.precomputeS 5 h1).precomputeR h2, by simp, rfl, asSender_err true e⟩

/-! ### C36 -/

/-- Everything `PrecomputeSender` and `PrecomputeReceiver` choose: the batch size is the requested one,
    up to what the largest parameters allow; the sizes are those of a row of the parameters; all
    expansions that runs will make fit that row; and no smaller row could hold the batch. -/
structure Suitable (b : Int) (h : Cuckoo.Hasher) (s' : VState T) : Prop where
  batch : s'.batch = min b (10616092 - s'.mpfssSize - s'.voleSize)
  buckets : numBuckets h s'.noise = .ok s'.mpfssSize
  row : ∃ (j : Nat) (o : Int), noiseSizes[j]? = some s'.noise ∧ seedSizes[j]? = some s'.voleSize ∧ outputSizes[j]? = some o ∧
    s'.batch + s'.voleSize + s'.mpfssSize ≤ o ∧
    ∀ k, k < j → ∃ o' t v m, outputSizes[k]? = some o' ∧ noiseSizes[k]? = some t ∧ seedSizes[k]? = some v ∧ numBuckets h t = .ok m ∧ o' < b + m + v

omit [Scalar T] in
theorem Chosen.suitable {b : Int} {s s' : VState T} (h : Chosen b s s') (hb : numBuckets s.mpfss.hasher s'.noise = .ok s'.mpfssSize) :
    Suitable b s.mpfss.hasher s' := by
  refine ⟨h.batch, hb, ?_⟩
  have hbat := h.batch
  obtain ⟨j, l, ⟨h1, h2⟩, -, -, h3, h4⟩ := h.row
  have low : ∀ k, k < j → ∃ o' t v m, outputSizes[k]? = some o' ∧ noiseSizes[k]? = some t ∧ seedSizes[k]? = some v ∧ numBuckets s.mpfss.hasher t = .ok m ∧ o' < b + m + v := by
    intro k hk
    obtain ⟨o, t, v, m, a1, a2, a3, a4, a5⟩ := h4 k hk
    exact ⟨o, t, v, m, rd_some a1, rd_some a2, rd_some a3, a4, a5⟩
  rcases h3 with rfl | ⟨o, h5, h6⟩
  · exact ⟨4, 10616092, rd_some h1, rd_some h2, rfl, by omega, low⟩
  · exact ⟨j, o, rd_some h1, rd_some h2, rd_some h5, by omega, low⟩

/-- C36: what `PrecomputeSender(b)` achieves if it returns OK, from any state and with any peer. -/
theorem C36_precompute_sender {E : Env T} {b : Int} {s s' : VState T} (h : Returns (precomputeSender E b s) (.ok (), s')) :
    1 ≤ b ∧ Suitable b s.mpfss.hasher s' := by
  rcases precomputeSender_loc E b s _ _ h with ⟨-, -, p⟩ | ⟨e, he, -⟩
  · exact ⟨p.pos, p.chosen.suitable (by rw [← p.hasher]; exact p.ready.buckets)⟩
  · cases he

/-- C36: the same for `PrecomputeReceiver(b, d)`. -/
theorem C36_precompute_receiver {E : Env T} {b : Int} {d : T} {s s' : VState T} (h : Returns (precomputeReceiver E b d s) (.ok (), s')) :
    1 ≤ b ∧ Suitable b s.mpfss.hasher s' := by
  rcases precomputeReceiver_loc E b d s _ _ h with ⟨-, -, p⟩ | ⟨e, he, -⟩
  · exact ⟨p.pos, p.chosen.suitable (by rw [← p.hasher]; exact p.ready.buckets)⟩
  · cases he

omit [Scalar T] in
/-- C36: the batch size is at least 1 whenever the numbers of buckets are below 10027932. -/
theorem C36_batch_positive {b : Int} {h : Cuckoo.Hasher} {s' : VState T} (hb : 1 ≤ b) (H : Suitable b h s')
    (hm : ∀ t ∈ noiseSizes, ∀ m, numBuckets h t = .ok m → m < 10027932) : 1 ≤ s'.batch := by
  obtain ⟨j, o, h1, h2, -⟩ := H.row
  have h3 := hm _ (List.mem_of_getElem? h1) _ H.buckets
  have h4 : s'.voleSize ≤ 588160 := by
    have := List.mem_of_getElem? h2
    simp only [seedSizes, List.mem_cons, List.not_mem_nil, or_false] at this
    omega
  have := H.batch
  omega

/-- The numbers of buckets are not too large for the expansions of the bootstrapping: these have to
    produce the seeds for the next row of the parameters. This is so for statistical security up to
    175 bits or so, whereas 40 is customary. -/
structure FewBuckets (h : Cuckoo.Hasher) : Prop where
  b1 : ∀ m, numBuckets h 198 = .ok m → m ≤ 614
  b2 : ∀ m, numBuckets h 382 = .ok m → m ≤ 8993
  b3 : ∀ m, numBuckets h 1254 = .ok m → m ≤ 28288
  b4 : ∀ m, numBuckets h 1324 = .ok m → m ≤ 27932

theorem BootStep.fits {h : Cuckoo.Hasher} (H : FewBuckets h) {k : Nat} {x : Int × Int × Int} (hx : BootStep h k x) : FitsRow x := by
  obtain ⟨nv, nn, m, h1, h2, h3, h4, h5, h6⟩ := hx
  have key : ∃ o, outputSizes[k]? = some o ∧ nv + m ≤ o := by
    rcases k with - | - | - | - | k
    · cases h3; cases h4; have := H.b1 _ h5; exact ⟨4096, rfl, by omega⟩
    · cases h3; cases h4; have := H.b2 _ h5; exact ⟨16384, rfl, by omega⟩
    · cases h3; cases h4; have := H.b3 _ h5; exact ⟨65536, rfl, by omega⟩
    · cases h3; cases h4; have := H.b4 _ h5; exact ⟨616092, rfl, by omega⟩
    · cases h3
  obtain ⟨o, h7, h8⟩ := key
  exact ⟨k, o, rd_some h1, rd_some h2, h7, by omega⟩

/-- C36: in the whole life of an object that is always the sender, with any peer, every expansion fits
    the row of the parameters it is run with, provided there are not too many buckets. -/
theorem C36_fits_sender_partial {E : Env T} {h : Cuckoo.Hasher} {junk : T} {l : List (Op T × Out (Answer T))} {s : VState T}
    (hl : Lives E (created h junk) l s) (hrole : ∀ x ∈ l, x.1.fwd = true) (hpre : ∀ x ∈ l, (∃ f n, x.1 = .run f n) ∨ ∃ a, x.2 = .ok a)
    (H : FewBuckets h) : ∀ x ∈ s.log, FitsRow x := by
  intro x hx
  rcases (hl.sender (SInv.new h junk) hrole hpre).log x hx with h1 | ⟨k, h1⟩
  · exact h1
  · exact h1.fits H

/-- C36: the same for a receiver. -/
theorem C36_fits_receiver_partial {E : Env T} {h : Cuckoo.Hasher} {junk : T} {l : List (Op T × Out (Answer T))} {s : VState T}
    (hl : Lives E (created h junk) l s) (hrole : ∀ x ∈ l, x.1.fwd = false) (hpre : ∀ x ∈ l, (∃ f n, x.1 = .run f n) ∨ ∃ a, x.2 = .ok a)
    (H : FewBuckets h) : ∀ x ∈ s.log, FitsRow x := by
  intro x hx
  rcases (hl.receiver (RInv.new h junk) hrole hpre).log x hx with h1 | ⟨k, h1⟩
  · exact h1
  · exact h1.fits H

/-- `FewBuckets` is satisfiable: 614 buckets suffice for all sizes of 614 and below, and 2000 for the others. -/
example : FewBuckets ⟨fun _ => 0, 3, fun _ _ => false, fun n => if n ≤ 198 then 614 else 2000⟩ := by
  constructor <;> intro m h <;> cases h <;> decide

/-- C36 is false for arbitrary bucket counts: with 2000 buckets, a precomputation makes an expansion
    that does not fit its row. -/
theorem C36_fits_false : ∃ (s' : VState (BitVec 64)), Returns (precomputeSender exA 3000 (created toyHasher 0)) (.ok (), s') ∧ ∃ x ∈ s'.log, ¬ FitsRow x := by
  have h1 := precompute_pair (P := fun _ => False) exE ex_together (batch := 3000) (by omega) (.inl (by omega)) (d := 5)
    (s := created toyHasher 0) (r := created toyHasher 0) (Coherent.new _) (Coherent.new _) rfl
  obtain ⟨⟨⟩, s1, ⟨⟩, r1, va, vb, c1, -, -⟩ := h1.false
  refine ⟨s1, c1.returns, ?_⟩
  rcases precomputeSender_loc exA 3000 _ _ _ c1.returns with ⟨-, -, p⟩ | ⟨e, he, -⟩
  swap; · cases he
  have hv := toy_row' (by omega) p.ready.buckets p.hasher p.chosen
  obtain ⟨j, l, ⟨-, hr⟩, hlog, ⟨-, hl, hb⟩, -, -⟩ := p.chosen.row
  have hj : j ≠ 0 := by rintro rfl; exact hv (Out.ok.inj hr).symm
  have hpos : 0 < l.length := by omega
  have hx := List.getElem?_eq_getElem hpos
  obtain ⟨nv, nn, m, a1, a2, a3, a4, a5, a6⟩ := hb 0 _ hx
  refine ⟨l[0], by rw [hlog]; exact List.mem_append_right _ (List.getElem_mem _), ?_⟩
  cases a3; cases a4
  have e : numBuckets (created toyHasher (0 : BitVec 64)).mpfss.hasher 198 = .ok 2000 := toy_buckets (t := 198) (by omega)
  rw [e] at a5
  have a5 := Out.ok.inj a5
  have a1 := Out.ok.inj a1
  rintro ⟨k, o, b1, b2, b3, b4⟩
  rw [← a1] at b1
  rcases k with - | - | - | - | - | k
  · have := Option.some.inj b3; omega
  iterate 4 exact absurd (Option.some.inj b1) (by decide)
  cases b1

/-- C36: batch sizes near the end of `int64_t` overflow (distributed_vector_ole.h:265) in the first
    iteration of the bootstrapping loop, in any state of the members (`mpfssSize` is the number of
    buckets there). -/
theorem C36_overflow_ub (E : Env T) (b : Int) (s : VState T) (h : 2 ^ 63 ≤ b + s.mpfssSize) :
    bootSender E b 4 0 s = .ret (.ub "signed overflow", s) := by
  unfold bootSender
  have e1 : rd outputSizes 0 = .ok 4096 := rfl
  have e2 : i64 (b + s.mpfssSize) = .ub "signed overflow" := by unfold i64; rw [if_pos (.inr h)]
  rw [VM.get_bind, e1, VM.lift_ok_bind, e2]
  rfl

/-! ### C37 -/

/-- C37, the part that is true: before any precomputation, `RunSender` and `RunReceiver` reject sizes
    below 1 without communicating. -/
theorem C37_rejects_partial (E : Env T) {n : Int} (hn : n ≤ 0) (s : VState T) :
    (s.sDone = false → runSender E n s = .ret (.err .invalidArgument "`batch_size` must be positive", s)) ∧
    (s.rDone = false → runReceiver E n s = .ret (.err .invalidArgument "`batch_size` must be positive", { s with pos := s.pos + 1 })) := by
  refine ⟨fun h => ?_, fun h => ?_⟩
  · rw [runSender_eq, if_neg (by simp [h])]
    unfold precomputeSender
    rw [if_pos (by omega)]
    rfl
  · rw [runReceiver_eq, if_neg (by simp [h])]
    unfold precomputeReceiver' precomputeReceiver
    rw [VM.bind_assoc, VM.draw_bind, if_pos (by omega)]
    rfl

/-- C37 is false after a precomputation: negative sizes are undefined behaviour. -/
theorem C37_negative_ub (E : Env T) {n : Int} (hn : n < 0) (s : VState T) :
    (s.sDone = true → runSender E n s = .ret (.ub "Eigen: tail", s)) ∧ (s.rDone = true → runReceiver E n s = .ret (.ub "Eigen: tail", s)) := by
  have e : ∀ {α : Type} (l : List α), splitTail l n = .ub "Eigen: tail" := by intro α l; unfold splitTail; rw [if_pos (.inl hn)]
  refine ⟨fun h => ?_, fun h => ?_⟩
  · have hg : getSender s.sCached n = .ub "Eigen: tail" := by unfold getSender; rw [if_neg (by omega), e]; rfl
    rw [runSender_eq, if_pos h]
    unfold senderRest
    rw [VM.get_bind, hg]
    rfl
  · have hg : getReceiver s.rCached n = .ub "Eigen: tail" := by unfold getReceiver; rw [if_neg (by omega), e]; rfl
    rw [runReceiver_eq, if_pos h]
    unfold receiverRest
    rw [VM.get_bind, hg]
    rfl

/-- C37 is false after a precomputation: size 0 is accepted. -/
theorem C37_zero_ok (E : Env T) (s : VState T) :
    (s.sDone = true → ∃ r s', runSender E 0 s = .ret (.ok r, s') ∧ r.u = [] ∧ r.v = []) ∧
    (s.rDone = true → ∃ r s', runReceiver E 0 s = .ret (.ok r, s') ∧ r.w = []) := by
  refine ⟨fun h => ?_, fun h => ?_⟩
  · rw [runSender_eq, if_pos h]
    rcases senderRest_cases E 0 s with ⟨rest, res, hg, e⟩ | ⟨hg, e⟩ | ⟨w, e⟩
    · obtain ⟨g1, g2, g3, -, rfl⟩ := getSender_ok hg
      exact ⟨_, _, e, by simp, by simp⟩
    · omega
    · exfalso
      have hg : ∃ x, getSender s.sCached 0 = .ok x := by
        unfold getSender splitTail
        rw [if_neg (by omega), if_neg (by omega), Out.ok_bind]
        dsimp only
        rw [if_neg (by omega), Out.ok_bind]
        exact ⟨_, rfl⟩
      obtain ⟨x, hg⟩ := hg
      unfold senderRest at e
      rw [VM.get_bind, hg] at e
      cases e
  · rw [runReceiver_eq, if_pos h]
    rcases receiverRest_cases E 0 s with ⟨rest, res, hg, e⟩ | ⟨hg, e⟩ | ⟨h0, w, e⟩
    · obtain ⟨g1, g2, -, rfl⟩ := getReceiver_ok hg
      exact ⟨_, _, e, by simp⟩
    · omega
    · omega

/-- Such states are reached: after any successful precomputation. -/
example : ∃ s r : VState (BitVec 64), Returns (precomputeSender exA 3000 (created toyHasher 0)) (.ok (), s) ∧ s.sDone = true ∧
    Returns (precomputeReceiver exB 3000 5 (created toyHasher 0)) (.ok (), r) ∧ r.rDone = true := by
  have h1 := precompute_pair (P := fun _ => False) exE ex_together (batch := 3000) (by omega) (.inl (by omega)) (d := 5)
    (s := created toyHasher 0) (r := created toyHasher 0) (Coherent.new _) (Coherent.new _) rfl
  obtain ⟨⟨⟩, s1, ⟨⟩, r1, va, vb, c1, -, F, -⟩ := h1.false
  exact ⟨s1, r1, c1.returns, F.doneS, c1.returnsRight, F.doneR⟩

end VOLE
end DVO
