/-
C79 is false of the sender of a vector OLE: a peer that sends an empty vector in an expansion makes it read past the end.
-/
import Verif.Props.Peer
import Verif.Props.PeerRuns

namespace DVO
variable {T : Type} [Scalar T]

/-! ### A party that ends in undefined behaviour -/

/-- Receiving `l`, the program ends in undefined behaviour. -/
def VOLE.Broken {α : Type} (l : List (Msg T)) (p : Proc (Msg T) (Out α × VOLE.VState T)) : Prop :=
  ∃ o s, Reads p l (o, s) ∧ ¬ o.NoUB

namespace VOLE
open MPFSS (State Res Coherent InRange Threads)

omit [Scalar T] in
theorem Broken.bind {α β : Type} {l : List (Msg T)} {x : VM T α} {f : α → VM T β} {s : VState T} (h : Broken l (x s)) :
    Broken l ((x >>= f) s) := by
  obtain ⟨o, s', h1, h2⟩ := h
  cases o with
  | ub w =>
    exact ⟨.ub w, s', by
      rw [VM.bind_apply, ← List.append_nil l]
      exact Reads.bind (M := Msg T) h1 (.ret _), id⟩
  | _ => exact absurd trivial h2

end VOLE

namespace MPFSS
open Cuckoo VOLE

/-- Some bucket is not empty. -/
theorem table_nonempty {h : Hasher} {t m : Nat} (hp : 0 < h.optimal t) (hn : 0 < h.numHash) (hm : 0 < m) :
    ∃ (j : Nat) (b : List Nat), (table h t m)[j]? = some b ∧ b ≠ [] := by
  by_contra hc
  have h1 : ((table h t m).map List.length).sum = 0 := by
    rw [List.sum_eq_zero_iff]
    intro x hx
    obtain ⟨b, hb, rfl⟩ := List.mem_map.1 hx
    obtain ⟨j, hj⟩ := List.mem_iff_getElem?.1 hb
    by_contra hne
    exact hc ⟨j, b, hj, fun e => hne (by rw [e]; rfl)⟩
  rw [table_total hp] at h1
  exact absurd h1 (Nat.mul_pos hn hm).ne'

theorem index_short (aes : Cipher) {fl : Nat → Nat → Nat} (c : Chans) {h : Hasher} {t m : Nat}
    (hs : Sized h fl t m) {thr : Nat → List Nat} (ht : Threads thr) {st : State} (hst : Coherent h st) {y u v out : List T}
    {indices : List Int} (hy : y.length = t) (hi : indices.length = t) (hin : InRange m indices) (ho : out.length = m)
    (hu : (u.length : Int) = h.optimal t) (hv : (v.length : Int) = h.optimal t)
    (hok : ∃ hashed, hashCuckoo h (indices.map indexBlock) (h.optimal t) = .ok hashed) {keys : List Block} (hk : keys.length = 2) :
    ∃ r, Reads (runIndexProviderVectorOLE aes fl c thr st y indices u v out) [.blocks keys, .elems []] r ∧ ¬ r.status.NoUB := by
  have B := bucketFacts (T := T) hs
  have hb1 := hs.buckets_pos
  have hpos := hs.pos
  have hle := hs.le
  obtain ⟨hashed, hok⟩ := hok
  have H := hashedOk hs hi hin hok
  rw [index_form aes c hs ht hst hy hi hin ho hu hok]
  have hv' : v.length = ((table h t m).map (fun b => List.replicate b.length (0 : T))).length := by
    rw [List.length_map, table_length]; omega
  obtain ⟨o, h1⟩ := SPFSS.index_reads_exists aes c hv' (by rw [B.lens]; exact poss_idxOk H) B.good hk []
  have h3 := SPFSS.index_reads aes c hv' (by rw [B.lens]; exact poss_idxOk H) B.good h1 (SPFSS.answers keys hk [])
  obtain ⟨j, b, h4, h5⟩ := table_nonempty (h := h) (t := t) (m := m) (by omega) (by have := hs.numHash; omega) (by omega)
  refine ⟨_, .send _ _ _ _ _ (Reads.bind (l2 := []) h1 (.ret _)), ?_⟩
  rcases h3 with ⟨e, -⟩ | ⟨_, v2, e, ⟨outs, rfl, -, h7⟩ | ⟨⟨w, rfl⟩, -⟩⟩
  · simp at e
  · cases e
    have := h7 j (List.replicate b.length 0) (by rw [List.getElem?_map, h4]; rfl) (by simpa using h5)
    simp at this
  · exact id

end MPFSS

namespace VOLE
open MPFSS (State Res Coherent InRange Threads)

theorem mpfss_broken {p : State → Proc (Msg T) (Res T)} {s : VState T} {l : List (Msg T)}
    (h : ∃ r, Reads (p s.mpfss) l r ∧ ¬ r.status.NoUB) : Broken l (VM.runMpfss p s) := by
  obtain ⟨r, h1, h2⟩ := h
  rw [runMpfss_eq]
  cases e : r.status with
  | ub w =>
    refine ⟨.ub w, { s with mpfss := r.st }, ?_, id⟩
    rw [← List.append_nil l]
    refine Reads.bind (M := Msg T) h1 ?_
    unfold afterMpfss
    rw [e]
    exact .ret _
  | _ => rw [e] at h2; exact absurd trivial h2

theorem expandSender_broken {h : Cuckoo.Hasher} {A B : Env T} (W : Together h A B) (S : Smooth h A) {t o : Nat} {nv nm : Int} {s : VState T}
    (ht : (t : Int) ∈ noiseSizes) (hle : t ≤ o) (ho : o ≤ 10616092) (hs : Coherent h s.mpfss)
    (hns : s.noise = t) (hco : CodeOk s.code s.sVole.u.length o) (hvl : s.sVole.v.length = s.sVole.u.length)
    (hmu : (s.sMpfss.u.length : Int) = h.optimal t) (hmv : (s.sMpfss.v.length : Int) = h.optimal t) {keys : List Block} (hk : keys.length = 2) :
    Broken [.blocks keys, .elems []] (expandSender A o nv nm s) := by
  have hpos := noise_pos ht
  have hle' := noise_le ht
  have hcc := hco.cols_
  unfold expandSender
  rw [VM.get_bind, if_neg (by omega), if_neg (by
      have h1 := hco.rows_; have h2 := hco.cols_; rw [h1, h2]; simp)]
  rw [VM.draw_bind]
  obtain ⟨g, hg, eg⟩ := create_usable (A.rand s.pos).junk ((List.range 32).map (A.rand s.pos).byte) (b := s.noise) (by simp)
    (by rw [hns]; omega)
  rw [eg, VM.lift_ok_bind, if_neg (by omega)]
  obtain ⟨set, eset, hhash⟩ := S.indices _ _ t o g ht hle ho (by rw [← hns]; exact eg)
  have hbound := sampleIndices_fine (lib := A.lib) (aes := A.aes) W.conforms (o := (o : Int)) (n := s.noise) (by omega) (by omega) A.fuel
    (set := []) hg List.nodup_nil (by simp) (by simp; omega)
  rw [← hns] at eset
  obtain ⟨hnd, hrange, hlen⟩ := hbound.get eset
  rw [eset, VM.lift_ok_bind]
  have hperm := W.orderA s.pos set
  have hlen' : set.length = t := by rw [hns] at hlen; omega
  have hhash := hhash _ hperm
  generalize hidx : (A.rand s.pos).order set = indices at hperm hhash ⊢
  have hrange' : ∀ i ∈ indices, 0 ≤ i ∧ i < (o : Int) := fun i hi => hrange i (hperm.mem_iff.1 hi)
  have hli : indices.length = t := by rw [hperm.length_eq, hlen']
  rw [VM.draw_bind, hns, vecOf_eq, VM.lift_ok_bind, VM.draw_bind, vecOf_eq, VM.lift_ok_bind]
  exact Broken.bind (mpfss_broken (MPFSS.index_short A.aes A.c (W.sized ht hle ho (S.bits t ht o ho)) W.threadsA (by exact hs) (by simp) hli hrange'
    (by simp) hmu hmv hhash hk))

theorem runExpandSender_broken {h : Cuckoo.Hasher} {A B : Env T} (W : Together h A B) (S : Smooth h A) {t v b : Nat} {s : VState T}
    (H : SenderReady h t v b s) {keys : List Block} (hk : keys.length = 2) :
    Broken [.blocks keys, .elems []] (expandSender A (s.batch + s.voleSize + s.mpfssSize) s.voleSize s.mpfssSize s) := by
  obtain ⟨i, hi⟩ := H.ready.row
  obtain ⟨b1, b2, b3⟩ := hi.bounds
  have hp := W.optimal_pos hi.mem
  have hl := H.ready.le
  obtain ⟨m, hm⟩ : ∃ m : Nat, (m : Int) = h.optimal t := ⟨(h.optimal t).toNat, by omega⟩
  have hm' : (h.optimal t).toNat = m := by omega
  have hc := H.ready.code
  rw [H.ready.batch, H.ready.vole, H.ready.mpfss, ← hm, show (b : Int) + v + m = ((b + v + m : Nat) : Int) by push_cast; rfl]
  exact expandSender_broken W S hi.mem (by omega) (by omega) H.coh H.ready.noise (by rw [H.lenV, ← hm']; exact hc) H.lenV' H.lenM H.lenM' hk

theorem senderRest_broken [LawfulScalar T] {h : Cuckoo.Hasher} {A B : Env T} (W : Together h A B) (S : Smooth h A) (hf : 0 < A.fuel) {t v b n : Nat}
    {s : VState T} (H : SenderReady h t v b s) (hn : s.sCached.u.length < n) {keys : List Block} (hk : keys.length = 2) :
    Broken [.blocks keys, .elems []] (senderRest A n s) := by
  have hcl := H.lenC
  unfold senderRest
  have e2 : getSender s.sCached (n : Int) = .err .outOfRange "Requested cached sender elements" := by
    unfold getSender; rw [if_pos (by omega)]
  rw [VM.get_bind, e2]
  dsimp only
  rw [VM.draw_bind, vecOf_eq, VM.lift_ok_bind, VM.draw_bind, vecOf_eq, VM.lift_ok_bind]
  obtain ⟨f, hf⟩ : ∃ f, A.fuel = f + 1 := ⟨A.fuel - 1, by omega⟩
  rw [hf]
  unfold runSenderLoop
  rw [if_pos (by omega), VM.get_bind]
  dsimp only
  rw [if_pos (by omega), VM.bind_assoc, setSeg_eq (by simp; omega), VM.lift_ok_bind, VM.bind_assoc, setSeg_eq (by simp; omega), VM.lift_ok_bind,
    VM.bind_assoc, VM.modify_bind, VM.pure_bind']
  dsimp only
  rw [if_pos (by omega), VM.get_bind]
  refine Broken.bind (runExpandSender_broken W S (t := t) (v := v) (b := b) ?_ hk)
  exact ⟨H.coh, ⟨H.ready.1, H.ready.2, H.ready.3, H.ready.4, H.ready.5, H.ready.6, H.ready.7, H.ready.8⟩, H.lenV, H.lenV', H.lenM, H.lenM', rfl, H.done⟩

/-- C79 is false of the sender of a vector OLE: after a precomputation in front of a peer that sent vectors of the right lengths,
    if the next run needs an expansion (more elements are asked for than are in store), cuckoo hashing succeeds, and the peer
    sends an empty vector after the keys, the sender reads past its end. -/
theorem C79_vole_sender_negation [LawfulScalar T] {h : Cuckoo.Hasher} {A : Env T} (W : Alone h A) (S : Smooth h A) (hf : 0 < A.fuel) {b : Int}
    (hb : b < 2 ^ 62) {s s1 : VState T} (hs : Coherent h s.mpfss) {l : List (Msg T)} (hl : Reads (precomputeSender A b s) l (.ok (), s1))
    (hm : MeetsAll (senderWants h b A.lower) l) {n : Int} (hn : (s1.sCached.u.length : Int) < n) {keys : List Block} (hk : keys.length = 2) :
    ∃ o s2, Reads (runSender A n s1) [.blocks keys, .elems []] (o, s2) ∧ ¬ o.NoUB := by
  obtain ⟨n, rfl⟩ := Int.eq_ofNat_of_zero_le (by omega : 0 ≤ n)
  have h1 := precomputeSender_safe (rs := []) W.together hb hs l _ _ hl (by rw [List.append_nil]; exact hm)
  obtain ⟨-, t, v, c, -, H⟩ := h1.2 () rfl
  rw [runSender_eq, if_pos H.done]
  exact senderRest_broken W.together S hf H (by omega) hk

end VOLE

/-! The executions with an honest peer are among those considered. -/

theorem Net.Steps.reads {M α β : Type} {n : Nat} {st st' : Net M α β} (h : Net.Steps n st st') {a : α} (hp : st'.p = .ret a) :
    ∃ l, Reads st.p l a := by
  induction h with
  | zero s => rw [hp]; exact ⟨[], .ret a⟩
  | succ h1 _ ih =>
    obtain ⟨l, hl⟩ := ih hp
    cases h1 with
    | pSend => exact ⟨l, .send _ _ _ _ _ hl⟩
    | qSend => exact ⟨l, hl⟩
    | pRecv ch m => exact ⟨m :: l, .recv _ _ _ _ _ hl⟩
    | qRecv => exact ⟨l, hl⟩
    | otPQ => exact ⟨l, .otSend _ _ _ _ _ _ hl⟩
    | otQP ch kd ms cs kp kq pq qp pv qv h => exact ⟨l, .otRecv _ _ _ _ _ _ _ (by simp [otResult, h]) hl⟩

theorem Net.Computes.reads {M α β : Type} {p : Proc M α} {q : Proc M β} {a : α} {b : β} {va vb} (h : Net.Computes p q a b va vb) :
    ∃ l, Reads p l a := by
  obtain ⟨n, hn⟩ := h.joint
  exact hn.reads (a := a) rfl

namespace VOLE

/-- A sender that has made a precomputation with an honest receiver asks for one element more than it has in store, and the
    receiver sends nothing in place of a vector. -/
example : ∃ s1, (∃ l, Reads (precomputeSender exA 1 (created toyHasher 0)) l (.ok (), s1)) ∧
    ∃ o s2, Reads (runSender exA (s1.sCached.u.length + 1) s1) [.blocks [1, 2], .elems []] (o, s2) ∧ ¬ o.NoUB := by
  obtain ⟨s1, _, _, _, _, _, _, _, c1, -, -⟩ := mixed_precompute
  obtain ⟨l, hl⟩ := c1.reads
  refine ⟨s1, ⟨l, hl⟩, C79_vole_sender_negation ex_together.alone (toy_smooth _ _ _ (by omega)) (by decide) (by omega)
    (MPFSS.Coherent.new toyHasher) hl ?_ (by omega) rfl⟩
  have e : senderWants toyHasher 1 exA.lower = [] := rfl
  rw [e]
  intro i w m h1 h2
  simp at h1

end VOLE
end DVO
