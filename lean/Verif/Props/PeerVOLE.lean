/-
C79 for the Gilboa product and for the precomputation of the vector OLE: what a party does with messages from any peer.
-/
import Verif.Props.Peer
import Verif.Proofs.VOLE5
import Verif.Props.VOLELocal2

namespace DVO
variable {T : Type} [Scalar T]

namespace Gilboa

/-- The vector provider, with arguments of matching lengths, in front of any peer: it receives nothing. -/
theorem vector_reads [LawfulScalar T] {c : Chans} {sec : Sec} {m0 : Nat → Block} {rnd : Nat → List T} {y o : List T}
    (h0 : o.length = y.length) (hg : GoodLength T y.length) {l : List (Msg T)} {r : Out (List T)}
    (h : Reads (α := Out (List T)) (runVectorProvider c sec m0 rnd y o) l r) : l = [] ∧ r = .ok (vectorOut sec m0 rnd y.length) := by
  have hp := LawfulScalar.size_pos (T := T)
  have hl := LawfulScalar.size_le (T := T)
  have hots := hg.ots
  unfold runVectorProvider at h
  rw [if_neg (by omega), if_neg (by omega), if_neg (by omega)] at h
  dsimp only at h
  rw [h0, makeDeltas_eq, PM.lift_ok_bind, otMessages_eq _ _ _ hots, PM.lift_ok_bind, PM.otSend_bind] at h
  cases h with
  | otSend _ _ _ _ _ _ h =>
    rw [tab_map, accumulate_eq (· - ·) (-1) (by intro a b; ring) _ _ _ rfl] at h
    exact h.of_ret

/-- The value provider in front of any peer, whatever the oblivious transfers return. -/
theorem value_reads [LawfulScalar T] {c : Chans} {sec : Sec} {x : T} {o : List T} (hg : GoodLength T o.length) {l : List (Msg T)}
    {r : Out (List T)} (h : Reads (α := Out (List T)) (runValueProvider c sec x o) l r) :
    l = [] ∧ ∃ w, r = .ok w ∧ w.length = o.length := by
  have hp := LawfulScalar.size_pos (T := T)
  have hl := LawfulScalar.size_le (T := T)
  have hlen := hg.len
  have hots := hg.ots
  unfold runValueProvider at h
  dsimp only at h
  rw [if_neg (by omega), if_neg (by omega), MPFSS.toInt32_eq (by omega), numOTs_eq hg, PM.lift_ok_bind, if_neg (by omega), Int.toNat_natCast,
    Int.toNat_natCast, makeChoices_eq, PM.lift_ok_bind, PM.otRecv_bind] at h
  cases h with
  | otRecv _ _ _ _ res _ _ hr h =>
    rw [tab_length] at hr
    beta_reduce at h
    rw [tab_self res 0, hr, accumulate_eq (· + ·) 1 (by intro a b; ring) _ _ _ rfl] at h
    obtain ⟨h1, h2⟩ := h.of_ret
    exact ⟨h1, _, h2, by simp⟩

/-- It does get to its end. -/
theorem value_reads_exists [LawfulScalar T] (c : Chans) (sec : Sec) (x : T) {o : List T} (hg : GoodLength T o.length) :
    ∃ w, w.length = o.length ∧ Reads (α := Out (List T)) (runValueProvider c sec x o) [] (.ok w) := by
  have hp := LawfulScalar.size_pos (T := T)
  have hl := LawfulScalar.size_le (T := T)
  have hlen := hg.len
  have hots := hg.ots
  unfold runValueProvider
  dsimp only
  rw [if_neg (by omega), if_neg (by omega), MPFSS.toInt32_eq (by omega), numOTs_eq hg, PM.lift_ok_bind, if_neg (by omega), Int.toNat_natCast,
    Int.toNat_natCast, makeChoices_eq, PM.lift_ok_bind, PM.otRecv_bind]
  refine ⟨tab o.length (fun q => acc 1 (fun _ => 0) q (bitWidth T)), by simp,
    .otRecv _ _ _ _ (tab _ (fun _ => 0)) _ _ (by rw [tab_length, tab_length]) ?_⟩
  rw [accumulate_eq (· + ·) 1 (by intro a b; ring) _ _ _ rfl]
  exact .ret _

/-- C79: the vector provider of the Gilboa product is safe with any peer, whatever its arguments. -/
theorem C79_gilboa_vector [LawfulScalar T] (c : Chans) (sec : Sec) (m0 : Nat → Block) (rnd : Nat → List T) (y o : List T)
    (hg : GoodLength T y.length) : Robust [] (fun _ => True) (runVectorProvider c sec m0 rnd y o : PM (Msg T) _) := by
  intro l r _ _ h
  by_cases h0 : o.length = y.length
  · rw [(vector_reads h0 hg h).2]; trivial
  · unfold runVectorProvider at h
    rw [if_pos (Ne.symm h0)] at h
    rw [h.of_ret.2]; trivial

/-- C79: the value provider of the Gilboa product is safe whatever the oblivious transfers return. -/
theorem C79_gilboa_value [LawfulScalar T] (c : Chans) (sec : Sec) (x : T) (o : List T) (hg : GoodLength T o.length) :
    Robust [] (fun _ => True) (runValueProvider c sec x o : PM (Msg T) _) := by
  intro l r _ _ h
  obtain ⟨-, w, rfl, -⟩ := value_reads hg h
  trivial

/-- Five elements of 32 bits, four to a block. -/
example : Robust [] (fun _ => True) (runVectorProvider ⟨0, 1, 2⟩ (some (2 ^ 40)) (fun i => BitVec.ofNat 128 (i * 977)) (fun _ => [])
      [1, 2, 3, 4, 5] [0, 0, 0, 0, 0] : PM (Msg (BitVec 32)) _) ∧
    Robust [] (fun _ => True) (runValueProvider ⟨0, 1, 2⟩ (some (2 ^ 40)) (0xfffffff0 : BitVec 32) [9, 9, 9, 9, 9] : PM (Msg (BitVec 32)) _) :=
  ⟨C79_gilboa_vector _ _ _ _ _ _ ⟨by decide, by decide⟩, C79_gilboa_value _ _ _ _ ⟨by decide, by decide⟩⟩

end Gilboa

namespace VOLE

omit [Scalar T] in
/-- A call of another protocol, in front of any peer. -/
theorem run_reads {α β : Type} {p : PM (Msg T) α} {a : α} {l : List (Msg T)} {f : α → VM T β} {s : VState T} {o : Out β}
    (h : Reads (α := Out α) p [] (.ok a)) (hf : ∃ s', Reads (f a s) l (o, s')) : ∃ s', Reads ((VM.run p >>= f) s) l (o, s') := by
  obtain ⟨s', hf⟩ := hf
  exact ⟨s', Reads.bind (M := Msg T) (l1 := []) (Reads.bind (M := Msg T) (l1 := []) (l2 := []) h (.ret (Out.ok a, s))) hf⟩

/-- C79 is false of the code: a peer that sends, after the Gilboa product, a vector of any other length than that of the first
    seed makes the receiver add vectors of different lengths, an assertion failure or a read out of bounds in Eigen. -/
theorem C79_vole_negation [LawfulScalar T] (h : Cuckoo.Hasher) (A B : Env T) (W : Together h A B) (b : Int) (hb : 1 ≤ b) (d : T)
    (s : VState T) (hs : MPFSS.Coherent h s.mpfss) (v : List T) (hv : (v.length : Int) ≠ 1589 + h.optimal 98) :
    ∃ o s', Reads (precomputeReceiver B b d s) [.elems v] (o, s') ∧ ¬ o.NoUB := by
  have hm : ((98 : Nat) : Int) ∈ noiseSizes := by simp [noiseSizes]
  have hp := W.optimal_pos hm
  have hl := W.optimal_lt hm
  obtain ⟨k, hk⟩ : ∃ k : Nat, (k : Int) = h.optimal 98 := ⟨(h.optimal 98).toNat, by omega⟩
  unfold precomputeReceiver
  rw [if_neg (by omega), start_bind W hs.hasher, ← hk, show (1589 : Int) + (k : Int) = ((1589 + k : Nat) : Int) by push_cast; rfl,
    VM.draw_bind, vecOf_eq, VM.lift_ok_bind, VM.modify_bind]
  have hx : ((List.range (1589 + k)).map (B.rand s.pos).elems).length = 1589 + k := by simp
  dsimp only
  generalize (List.range (1589 + k)).map (B.rand s.pos).elems = x at *
  obtain ⟨w, hw, hr⟩ := Gilboa.value_reads_exists B.c B.sec d (o := x) (by rw [hx]; exact goodLength (by omega) (by omega))
  refine ⟨.ub "Eigen: size mismatch", ?_⟩
  have e : vecOp (· + ·) w v = .ub "Eigen: size mismatch" := by
    unfold vecOp; rw [if_pos (by omega)]
  refine exists_and_right.2 ⟨run_reads hr ?_, id⟩
  rw [VM.modify_bind, VM.run_recv_bind]
  have hlift : ∀ (f : List T → VM T Unit) (st : VState T), ∃ s',
      Reads ((VM.lift (vecOp (· + ·) w v) >>= f) st) [] ((.ub "Eigen: size mismatch" : Out Unit), s') := by
    intro f st
    rw [e]
    exact ⟨_, .ret _⟩
  obtain ⟨s', h1⟩ := hlift _ _
  exact ⟨s', .recv _ _ (Msg.elems v) [] _ h1⟩

/-- A new receiver whose peer sends an empty vector. -/
example : ∃ o s', Reads (precomputeReceiver exB 1 5 (created toyHasher 0)) [.elems []] (o, s') ∧ ¬ o.NoUB :=
  C79_vole_negation toyHasher exA exB ex_together 1 (by omega) 5 _ (MPFSS.Coherent.new toyHasher) []
    (by have := ex_together.optimal_pos (t := 98) (by simp [noiseSizes]); simp; omega)

end VOLE

end DVO
