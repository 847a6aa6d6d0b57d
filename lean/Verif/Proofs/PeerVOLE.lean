/-
Vector OLE: one party, whatever its peer sends, as long as vectors have the length it counts on.
-/
import Verif.Spec.PeerVOLE
import Verif.Props.PeerVOLE
import Verif.Proofs.Traffic3
import Verif.Proofs.VOLE6

namespace DVO

theorem Reads.returns {M α : Type} {p : Proc M α} {l : List M} {a : α} (h : Reads p l a) : Returns p a := by
  induction h with
  | ret a => exact .ret a
  | send ch m k l a _ ih => exact .send _ _ _ _ ih
  | recv ch k m l a _ ih => exact .recv _ _ _ _ ih
  | otSend ch kd ms k l a _ ih => exact .otSend _ _ _ _ _ ih
  | otRecv ch kd cs k r l a _ _ ih => exact .otRecv _ _ _ _ _ _ ih

theorem loop_preserves {σ : Type} {f : Nat → σ → Out σ} {P : σ → Prop} (hf : ∀ i s s', P s → f i s = .ok s' → P s') {n lo : Nat} {s s' : σ}
    (h0 : P s) (h : loop f lo n s = .ok s') : P s' := by
  induction n generalizing lo s with
  | zero => cases h; exact h0
  | succ n ih =>
    obtain ⟨s1, h1, h2⟩ := Out.bind_eq_ok.1 h
    exact ih (hf _ _ _ h0 h1) h2

namespace MPFSS
variable {T : Type} [Scalar T]

theorem scatter_length {B : List (List Nat)} {bo : List (List T)} {o r : List T} (h : scatter B bo o = .ok r) : r.length = o.length := by
  unfold scatter at h
  refine loop_preserves (P := fun r => r.length = o.length) ?_ rfl h
  intro i s s' hs h1
  obtain ⟨b, -, h2⟩ := Out.bind_eq_ok.1 h1
  refine loop_preserves (P := fun r => r.length = o.length) ?_ hs h2
  intro j s s' hs h3
  obtain ⟨k, -, h3⟩ := Out.bind_eq_ok.1 h3
  obtain ⟨x, -, h3⟩ := Out.bind_eq_ok.1 h3
  obtain ⟨y, -, h3⟩ := Out.bind_eq_ok.1 h3
  unfold wr at h3
  split at h3
  · cases h3; simpa using hs
  · cases h3

theorem finish_length (st : State) (m : Nat) (o : Out (List (List T))) : (finish st m o).output.length = m := by
  unfold finish
  split
  · split
    · next h => simpa using scatter_length h
    all_goals simp
  all_goals simp

/-- The value provider keeps the size of its output. -/
theorem value_length {aes fl c sec key seed thr} {st : State} {x : T} {yLen : Int} {w output : List T} {r : Res T}
    (h : Returns (runValueProviderVectorOLE aes fl c sec key seed thr st x yLen w output) r) : r.output.length = output.length := by
  unfold runValueProviderVectorOLE at h
  split at h
  · cases h; rfl
  · split at h
    · cases h with
      | recv _ _ m _ h =>
        dsimp only at h
        split at h
        · obtain ⟨a, _, h2⟩ := Returns.bind h
          cases h2
          exact finish_length _ _ _
        all_goals (cases h; rfl)
    · cases h; rfl

/-- The same for the index provider. -/
theorem index_length {aes fl c thr} {st : State} {y : List T} {indices : List Int} {u v output : List T} {r : Res T}
    (h : Returns (runIndexProviderVectorOLE aes fl c thr st y indices u v output) r) : r.output.length = output.length := by
  unfold runIndexProviderVectorOLE at h
  split at h
  · cases h; rfl
  split at h
  · cases h; rfl
  split at h
  · cases h; rfl
  split at h
  · cases h; rfl
  · split at h
    · split at h
      · cases h with
        | send _ _ _ _ h =>
          split at h
          · obtain ⟨a, _, h2⟩ := Returns.bind h
            cases h2
            exact finish_length _ _ _
          all_goals (cases h; simp)
      all_goals (cases h; rfl)
    · cases h; rfl

end MPFSS

namespace VOLE
open MPFSS
variable {T : Type} {α β : Type} {rs : List Want}

/-! ### Rules -/

theorem MeetsAll.left {l1 l2 : List (Msg T)} (h : MeetsAll rs (l1 ++ l2)) : MeetsAll rs l1 := by
  intro i r m h1 h2
  refine h i r m h1 ?_
  rw [List.getElem?_append_left (List.getElem?_eq_some_iff.1 h2).1]
  exact h2

theorem MeetsAll.right {l1 l2 : List (Msg T)} (h : MeetsAll rs (l1 ++ l2)) : MeetsAll (rs.drop l1.length) l2 := by
  intro i r m h1 h2
  rw [List.getElem?_drop] at h1
  refine h _ r m h1 ?_
  rw [List.getElem?_append_right (by omega), Nat.add_sub_cancel_left]
  exact h2

/-- Whatever `p` receives, as long as it is as wanted, it has no undefined behaviour; if it succeeds, `Q` holds of its result,
    the state, and what is wanted next. -/
def Safe (rs : List Want) (p : Proc (Msg T) (Out α × VState T)) (Q : α → VState T → List Want → Prop) : Prop :=
  ∀ l o s', Reads p l (o, s') → MeetsAll rs l → o.NoUB ∧ ∀ a, o = .ok a → Q a s' (rs.drop l.length)

variable {Q : α → VState T → List Want → Prop} {Q' : β → VState T → List Want → Prop}

theorem Safe.ret {a : α} {s : VState T} (h : Q a s rs) : Safe rs (.ret (.ok a, s)) Q := by
  intro l o s' hr _
  obtain ⟨rfl, e⟩ := hr.of_ret
  cases e
  exact ⟨trivial, fun a e => by cases e; exact h⟩

theorem Safe.fail {o : Out α} {s : VState T} (h : o.NoUB) (hn : ∀ a, o ≠ .ok a) : Safe rs (.ret (o, s)) Q := by
  intro l o s' hr _
  obtain ⟨rfl, e⟩ := hr.of_ret
  cases e
  exact ⟨h, fun a e => absurd e (hn a)⟩

theorem Safe.mono {p : Proc (Msg T) (Out α × VState T)} {Q2 : α → VState T → List Want → Prop} (h : Safe rs p Q)
    (hi : ∀ a s rs, Q a s rs → Q2 a s rs) : Safe rs p Q2 := by
  intro l o s' hr hl
  obtain ⟨h1, h2⟩ := h l o s' hr hl
  exact ⟨h1, fun a e => hi _ _ _ (h2 a e)⟩

theorem Safe.bind {x : VM T α} {f : α → VM T β} {s : VState T} (h : Safe rs (x s) Q)
    (hk : ∀ a s1 rs1, Q a s1 rs1 → Safe rs1 (f a s1) Q') : Safe rs ((x >>= f) s) Q' := by
  intro l o s' hr hl
  rw [VM.bind_apply] at hr
  obtain ⟨l1, l2, ⟨o1, s1⟩, rfl, h1, h2⟩ := Reads.of_bind hr
  obtain ⟨h3, h4⟩ := h l1 o1 s1 h1 hl.left
  cases o1 with
  | ok a =>
    have := hk a s1 _ (h4 a rfl) l2 o s' h2 hl.right
    rwa [List.drop_drop, ← List.length_append] at this
  | ub w => exact h3.elim
  | _ =>
    obtain ⟨-, e⟩ := h2.of_ret
    cases e
    exact ⟨trivial, by intro a e; cases e⟩

theorem Safe.liftBind {x : Out α} {f : α → VM T β} {s : VState T} (h : x.NoUB) (hk : ∀ a, x = .ok a → Safe rs (f a s) Q') :
    Safe rs ((VM.lift x >>= f) s) Q' := by
  cases x with
  | ok a => exact hk a rfl
  | ub w => exact h.elim
  | _ => exact Safe.fail (o := _) trivial (by intro a e; cases e)

theorem Safe.send {ch : Nat} {m : Msg T} {k : Proc (Msg T) (Out α × VState T)} (h : Safe rs k Q) : Safe rs (.send ch m k) Q := by
  intro l o s' hr hl
  cases hr with
  | send _ _ _ _ _ hr => exact h l o s' hr hl

theorem Safe.recv {ch : Nat} {w : Want} {k : Msg T → Proc (Msg T) (Out α × VState T)} (h : ∀ m, Meets w m → Safe rs (k m) Q) :
    Safe (w :: rs) (.recv ch k) Q := by
  intro l o s' hr hl
  cases hr with
  | recv _ _ m l _ hr =>
    refine h m (hl 0 w m rfl rfl) l o s' hr ?_
    have := MeetsAll.right (l1 := [m]) (l2 := l) hl
    exact this

/-- A call of a protocol that receives no messages. -/
theorem Safe.run {p : PM (Msg T) α} {f : α → VM T β} {s : VState T}
    (h : ∀ l o, Reads (α := Out α) p l o → l = [] ∧ o.NoUB ∧ ∀ a, o = .ok a → Safe rs (f a s) Q') : Safe rs ((VM.run p >>= f) s) Q' := by
  refine Safe.bind (Q := fun a s1 rs1 => s1 = s ∧ rs1 = rs ∧ Safe rs (f a s) Q') ?_ ?_
  · intro l o s' hr _
    obtain ⟨l1, l2, o1, rfl, h1, h2⟩ := Reads.of_bind (M := Msg T) hr
    obtain ⟨rfl, e⟩ := h2.of_ret
    cases e
    obtain ⟨rfl, h3, h4⟩ := h l1 o h1
    exact ⟨h3, fun a e => ⟨rfl, rfl, h4 a e⟩⟩
  · rintro a s1 rs1 ⟨rfl, rfl, h3⟩
    exact h3

variable [Scalar T] {h : Cuckoo.Hasher} {A B : Env T}

theorem create_noUB (junk : RNG.Gen) (s : List (BitVec 8)) (b : Int) : (RNG.create junk s b).NoUB := by
  unfold RNG.create RNG.seed
  dsimp only
  by_cases e : s.length < RNG.stateSize
  · rw [if_pos e]; trivial
  · rw [if_neg e]; trivial

theorem Fine.noUB {P : α → Prop} {x : Out α} (h : Fine P x) : x.NoUB := by
  cases x with
  | ub w => exact h.elim
  | _ => trivial

theorem Fine.get {P : α → Prop} {x : Out α} {a : α} (h : Fine P x) (e : x = .ok a) : P a := by
  rw [e] at h; exact h

/-! ### The code generator -/

theorem common_safe (W : Together h A B) {t o : Nat} {s : VState T}
    (ht : (t : Int) ∈ noiseSizes) (hle : t ≤ o) (ho : o ≤ 10616092) (hs : Coherent h s.mpfss)
    (hns : s.noise = t) {vs : Nat} (hv : 1 ≤ vs) (hvs : s.voleSize = vs) :
    Safe (wantSeed A.lower ++ rs) (precomputeCommon A o s) (fun _ s' rs' => rs' = rs ∧ ∃ st c p, Coherent h st ∧
      SampledOk c vs o ∧ s' = { s with mpfss := st, code := c, pos := p }) := by
  unfold precomputeCommon
  rw [VM.get_bind, hns]
  rcases updateBuckets_cases W ht hle ho W.threadsA hs with ⟨st, e1, h1⟩ | ⟨hb, msg, st, e1⟩
  swap
  · rw [VM.bind_apply]
    unfold updateBuckets
    rw [e1]
    exact Safe.fail (o := .err _ _) trivial (by intro a e; cases e)
  have u1 : ∀ (f : Unit → VM T Unit), (updateBuckets A (o : Int) (t : Int) >>= f) s = f () { s with mpfss := st } := by
    intro f
    rw [VM.bind_apply]
    unfold updateBuckets
    rw [e1]
    rfl
  rw [u1, if_neg (by omega), VM.modify_bind]
  refine Safe.bind (Q := fun _ s1 rs1 => rs1 = rs ∧ s1 = { s with mpfss := st, code := ⟨s.voleSize, List.replicate (o : Int).toNat []⟩, pos := s.pos + 1 }) ?_ ?_
  · unfold exchangeSeed wantSeed
    rw [VM.draw_bind]
    cases A.lower with
    | true =>
      simp only [if_true, List.nil_append]
      rw [VM.run_send_bind]
      exact Safe.send (Safe.ret ⟨rfl, rfl⟩)
    | false =>
      simp only [Bool.false_eq_true, if_false, List.cons_append, List.nil_append]
      rw [VM.run_recv_bind]
      refine Safe.recv (fun m hm => ?_)
      cases m with
      | closed => exact Safe.fail (o := .throws _) trivial (by intro a e; cases e)
      | bytes b => exact Safe.ret ⟨rfl, rfl⟩
      | _ => exact absurd hm id
  · rintro seed s1 rs1 ⟨rfl, rfl⟩
    rw [VM.draw_bind]
    refine Safe.liftBind (create_noUB _ _ _) (fun g eg => ?_)
    have hg : Usable g := by
      by_cases hl : 32 ≤ seed.length
      · obtain ⟨g', hg, eg'⟩ := create_usable (A.rand (s.pos + 1)).junk seed (b := (nonzeros : Int) * o) hl (by unfold nonzeros; omega)
        rw [eg'] at eg
        cases eg
        exact hg
      · unfold RNG.create RNG.seed at eg
        dsimp only at eg
        rw [if_pos (by unfold RNG.stateSize; omega)] at eg
        cases eg
    cases hcan : Scalar.canHash T (ROT.secPerLeaf A.sec ((nonzeros : Int) * o)) 128 with
    | false =>
      simp only [Bool.not_false, if_true]
      exact Safe.fail (o := .err _ _) trivial (by intro a e; cases e)
    | true =>
      simp only [Bool.not_true, Bool.false_eq_true, if_false]
      rw [VM.get_bind]
      dsimp only
      rw [hvs]
      have F : Fine (fun c : Sparse T => SampledOk c vs o) (sampleCode A.lib A.aes (vs : Int) (o : Int).toNat g) := by
        have := sampleCode_fine (T := T) W.conforms (rows := (vs : Int)) (by omega) o hg
        simpa using this
      refine Safe.liftBind F.noUB (fun c ec => ?_)
      exact Safe.ret ⟨rfl, st, c, _, h1, F.get ec, by rw [← hns, ← hvs]⟩

/-! ### MPFSS -/

/-- A call of MPFSS that receives `n` messages if it succeeds. -/
theorem mpfss_safe {p : State → Proc (Msg T) (Res T)} {s : VState T} {ws : List Want} {m : Nat}
    (hp : ∀ l r, Reads (p s.mpfss) l r → MeetsAll ws l → r.status.NoUB ∧ (r.status = .ok () → l.length = ws.length))
    (hc : ∀ r, Returns (p s.mpfss) r → Coherent h r.st) (hl : ∀ r, Returns (p s.mpfss) r → r.output.length = m) :
    Safe (ws ++ rs) (VM.runMpfss p s) (fun o s' rs' => rs' = rs ∧ o.length = m ∧ ∃ st, Coherent h st ∧ s' = { s with mpfss := st }) := by
  intro l o s' hr hm
  rw [runMpfss_eq] at hr
  obtain ⟨l1, l2, r, rfl, h1, h2⟩ := Reads.of_bind hr
  have hm1 : MeetsAll ws l1 := by
    intro i w m h3 h4
    refine hm.left i w m ?_ h4
    rw [List.getElem?_append_left (List.getElem?_eq_some_iff.1 h3).1]
    exact h3
  obtain ⟨h3, h4⟩ := hp l1 r h1 hm1
  have hc := hc r h1.returns
  have hl := hl r h1.returns
  cases e : r.status with
  | ok u =>
    rw [afterMpfss_ok _ e] at h2
    obtain ⟨rfl, e2⟩ := h2.of_ret
    cases e2
    refine ⟨trivial, fun a ea => ?_⟩
    cases ea
    refine ⟨?_, hl, _, hc, rfl⟩
    rw [List.append_nil, h4 e, List.drop_left]
  | ub w => rw [e] at h3; exact h3.elim
  | _ =>
    unfold afterMpfss at h2
    rw [e] at h2
    obtain ⟨rfl, e2⟩ := h2.of_ret
    cases e2
    exact ⟨trivial, by intro a e; cases e⟩

theorem value_safe (W : Together h A B) {t m : Nat} (ht : (t : Int) ∈ noiseSizes) (hle : t ≤ m) (hm : m ≤ 10616092)
    {st : State} (hs : Coherent h st) {sec : Sec} {key seed : Nat → Block} {x : T} {w out : List T} (hw : (w.length : Int) = h.optimal t)
    (ho : out.length = m) {l : List (Msg T)} {r : Res T}
    (hr : Reads (runValueProviderVectorOLE A.aes A.fl A.c sec key seed A.thr st x t w out) l r)
    (hl : MeetsAll [.exactly (h.optimal t).toNat] l) : r.status.NoUB ∧ (r.status = .ok () → l.length = 1) := by
  have hp := noise_pos ht
  cases hb : h.tooManyBits m (h.optimal t).toNat with
  | true =>
    rcases updateBuckets_cases W ht hle hm W.threadsA hs with ⟨st', e, -⟩ | ⟨-, msg, st', e⟩
    · obtain ⟨msg, e2⟩ := computeBuckets_bits W ht hb A.thr
      have h1 := (updateBuckets_coherent W.threadsA hs m t).1
      have h2 : (MPFSS.updateBuckets A.thr (State.new h) m t).1 = .err .invalidArgument msg := by
        unfold MPFSS.updateBuckets State.new
        rw [if_pos (by simp)]
        dsimp only
        rw [e2]
      rw [h2, e] at h1
      cases h1
    · unfold runValueProviderVectorOLE at hr
      rw [if_neg (by omega), ho, e] at hr
      obtain ⟨-, rfl⟩ := hr.of_ret
      exact ⟨trivial, by intro e; cases e⟩
  | false =>
    have ha : AnswersAll [.vector] l := by
      intro i r m h1 h2
      match i with
      | 0 =>
        cases h1
        have := hl 0 _ m rfl h2
        cases m with
        | closed => trivial
        | elems v => trivial
        | _ => exact absurd this id
      | i + 1 => simp at h1
    rcases value_reads A.aes A.c (W.sized ht hle hm hb) W.threadsA hs ho hr ha with ⟨rfl, h1⟩ | ⟨v, rfl, h1⟩
    · exact ⟨h1, fun _ => rfl⟩
    · refine ⟨h1.2 ?_, fun _ => rfl⟩
      have : v.length = (h.optimal t).toNat := hl 0 _ _ rfl rfl
      omega

theorem index_safe (W : Together h A B) {t m : Nat} (ht : (t : Int) ∈ noiseSizes) (hle : t ≤ m) (hm : m ≤ 10616092)
    {st : State} (hst : Coherent h st) {y u v out : List T} {indices : List Int} (hy : y.length = t) (hi : indices.length = t)
    (hin : InRange m indices) (ho : out.length = m) (hu : (u.length : Int) = h.optimal t) (hv : (v.length : Int) = h.optimal t)
    {l : List (Msg T)} {r : Res T} (hr : Reads (runIndexProviderVectorOLE A.aes A.fl A.c A.thr st y indices u v out) l r)
    (hl : MeetsAll [.keys, .atLeast (h.optimal t).toNat] l) : r.status.NoUB ∧ (r.status = .ok () → l.length = 2) := by
  have hp := noise_pos ht
  have hle' : ∀ i ∈ indices, i ≤ (m : Int) := fun i hi' => le_of_lt (hin i hi').2
  cases hb : h.tooManyBits m (h.optimal t).toNat with
  | true =>
    rcases updateBuckets_cases W ht hle hm W.threadsA hst with ⟨st', e, -⟩ | ⟨-, msg, st', e⟩
    · obtain ⟨msg, e2⟩ := computeBuckets_bits W ht hb A.thr
      have h1 := (updateBuckets_coherent W.threadsA hst m t).1
      have h2 : (MPFSS.updateBuckets A.thr (State.new h) m t).1 = .err .invalidArgument msg := by
        unfold MPFSS.updateBuckets State.new
        rw [if_pos (by simp)]
        dsimp only
        rw [e2]
      rw [h2, e] at h1
      cases h1
    · unfold runIndexProviderVectorOLE at hr
      rw [if_neg (by omega), if_neg (by omega), if_neg (by omega), if_neg (by
        rw [List.any_eq_true]
        rintro ⟨i, hi1, hi2⟩
        have := hle' i (List.mem_of_mem_take hi1)
        simp only [decide_eq_true_eq] at hi2
        omega), ho, hy, toInt32_eq (by omega), e] at hr
      obtain ⟨-, rfl⟩ := hr.of_ret
      exact ⟨trivial, by intro e; cases e⟩
  | false =>
    have hs := W.sized ht hle hm hb
    have Bf := bucketFacts (T := T) hs
    by_cases hok : ∃ hashed, Cuckoo.hashCuckoo h (indices.map indexBlock) (h.optimal t) = .ok hashed
    · obtain ⟨hashed, hok⟩ := hok
      have H := hashedOk hs hi hin hok
      rw [index_form A.aes A.c hs W.threadsA hst hy hi hin ho hu hok] at hr
      cases hr with
      | send _ _ _ _ _ hr =>
        obtain ⟨l1, l2, o, rfl, h1, h2⟩ := Reads.of_bind hr
        obtain ⟨rfl, rfl⟩ := h2.of_ret
        rw [List.append_nil] at hl ⊢
        have hv' : v.length = ((table h t m).map (fun b => List.replicate b.length (0 : T))).length := by
          rw [List.length_map, table_length]; omega
        have ha : AnswersAll [.keys, .vector] l1 := by
          intro i r m h1 h2
          match i with
          | 0 =>
            cases h1
            have := hl 0 _ m rfl h2
            cases m with
            | closed => trivial
            | blocks v => exact this
            | _ => exact absurd this id
          | 1 =>
            cases h1
            have := hl 1 _ m rfl h2
            cases m with
            | closed => trivial
            | elems v => trivial
            | _ => exact absurd this id
          | i + 2 => simp at h1
        have h3 := SPFSS.index_reads A.aes A.c hv' (by rw [Bf.lens]; exact poss_idxOk H) Bf.good h1 ha
        have hsc := scatter_safe ⟨h, table h t m, some m, some t⟩ Bf.lt Bf.mem (o := o) (by
          rintro bo rfl
          rcases h3 with ⟨-, e⟩ | ⟨_, _, -, ⟨outs, e, h4, -⟩ | ⟨⟨w, e⟩, -⟩⟩
          · cases e
          · cases e; rw [h4, Bf.lens]
          · cases e)
        rcases h3 with ⟨-, rfl⟩ | ⟨_, v2, rfl, ⟨outs, rfl, -, -⟩ | ⟨-, j, row, h4, -, h5⟩⟩
        · exact ⟨hsc.2 trivial, by intro e; cases e⟩
        · exact ⟨hsc.2 trivial, fun _ => rfl⟩
        · rw [List.getElem?_eq_some_iff] at h4
          obtain ⟨hj, -⟩ := h4
          have : (h.optimal t).toNat ≤ v2.length := hl 1 _ _ rfl rfl
          simp only [List.length_map, table_length] at hj
          omega
    · obtain ⟨r', h1, h2, -, -⟩ := index_fails (aes := A.aes) (c := A.c) (u := u) (v := v) hs W.threadsA hst hy hi hle' ho hok
      rw [h1] at hr
      rw [hr.of_ret.2, h2]
      have h5 := hashIndices_safe hs indices
      have h6 : ∀ x, hashIndices h indices (h.optimal t) ≠ .ok x := by
        intro x e
        apply hok
        refine ⟨x, ?_⟩
        unfold hashIndices at e
        split at e
        · split at e <;> cases e
        · exact e
      cases e : hashIndices h indices (h.optimal t) with
      | ok x => exact absurd e (h6 x)
      | ub w => rw [e] at h5; exact h5.elim
      | _ => exact ⟨trivial, by intro e; cases e⟩

/-! ### Expansion -/

set_option maxHeartbeats 1000000 in
theorem expandReceiver_safe (W : Together h A B) {t o nv nm : Nat} {r : VState T}
    (ht : (t : Int) ∈ noiseSizes) (hle : t ≤ o) (ho : o ≤ 10616092) (hr : Coherent h r.mpfss)
    (hnr : r.noise = t) (hco : CodeOk r.code r.rVole.w.length o)
    (hml : (r.rMpfss.w.length : Int) = h.optimal t) (hn : nv + nm ≤ r.rCached.w.length + o) :
    Safe ([.exactly (h.optimal t).toNat] ++ rs) (expandReceiver A o nv nm r) (fun _ r' rs' => rs' = rs ∧ ∃ (e : RRes T) (st : State) (q : Nat) (n : List T) (us : List (Option Nat)) (l : List (Int × Int × Int)),
      e.w.length = r.rCached.w.length + o ∧ Coherent h st ∧
      r' = { r with
        mpfss := st, rCached := (e.rest nv).rest nm, rVole := e.last nv, rMpfss := (e.rest nv).last nm, voleSize := nv, mpfssSize := nm, pos := q,
        rMade := n, log := l, rUsed := us }) := by
  have hcl := hco.cols_
  unfold expandReceiver
  rw [VM.get_bind, if_neg (by
      have h1 := hco.rows_; have h2 := hco.cols_; rw [h1, h2]; simp)]
  rw [VM.draw_bind, vecOf_eq, VM.lift_ok_bind, VM.modify_bind, VM.draw_bind, vecOf_eq, VM.lift_ok_bind, hnr]
  refine Safe.bind (mpfss_safe (h := h) (ws := [.exactly (h.optimal t).toNat]) (m := o) ?_ ?_ ?_) ?_
  · intro l x hx hl
    exact value_safe W ht hle ho (by exact hr) hml (by simp) hx hl
  · intro x hx
    exact value_coherent W.threadsA (by exact hr) hx
  · intro x hx
    rw [value_length hx]; simp
  rintro v1 r1 rs1 ⟨rfl, hl1, st, hst, rfl⟩
  rw [vecMat_eq (cols := o) hco, VM.lift_ok_bind, vecOp_eq (by simp; omega), VM.lift_ok_bind, VM.modify_bind]
  have hlw : (List.zipWith (· + ·) (r.code.cols.map (dot r.rVole.w)) v1).length = o := by simp; omega
  generalize List.zipWith (· + ·) (r.code.cols.map (dot r.rVole.w)) v1 = Wv at *
  have hE : ∀ (l : List T) (g : List T), g.length = o → (l ++ g).take ((l ++ g).length - o) = l := by
    intro l g hg
    rw [List.length_append, hg, Nat.add_sub_cancel, List.take_left]
  have hE' : ∀ (l : List (Option Nat)) (g : List (Option Nat)), g.length = o → (l ++ g).take ((l ++ g).length - o) = l := by
    intro l g hg
    rw [List.length_append, hg, Nat.add_sub_cancel, List.take_left]
  dsimp only
  rw [Int.toNat_natCast, hE _ _ (by simp), hE' _ _ (by simp)]
  rw [getReceiverCached_bind (by simp; omega), VM.modify_bind, getReceiverCached_bind (by simp [RRes.rest]; omega)]
  exact Safe.ret ⟨rfl, ⟨r.rCached.w ++ Wv, r.rCached.delta, r.rCached.ids ++ freshIds r.rMade.length o⟩, st, _, _, _, _,
    by simp; omega, hst, rfl⟩

set_option maxHeartbeats 1000000 in
theorem expandSender_safe (W : Together h A B) {t o nv nm : Nat} {s : VState T}
    (ht : (t : Int) ∈ noiseSizes) (hle : t ≤ o) (ho : o ≤ 10616092) (hs : Coherent h s.mpfss)
    (hns : s.noise = t) (hco : CodeOk s.code s.sVole.u.length o) (hvl : s.sVole.v.length = s.sVole.u.length)
    (hmu : (s.sMpfss.u.length : Int) = h.optimal t) (hmv : (s.sMpfss.v.length : Int) = h.optimal t)
    (hcl : s.sCached.v.length = s.sCached.u.length) (hn : nv + nm ≤ s.sCached.u.length + o) :
    Safe ([.keys, .atLeast (h.optimal t).toNat] ++ rs) (expandSender A o nv nm s) (fun _ s' rs' => rs' = rs ∧ ∃ (c : SRes T) (st : State) (p : Nat) (n : List (T × T)) (us : List (Option Nat)) (l : List (Int × Int × Int)),
      c.u.length = s.sCached.u.length + o ∧ c.v.length = c.u.length ∧ Coherent h st ∧
      s' = { s with
        mpfss := st, sCached := (c.rest nv).rest nm, sVole := c.last nv, sMpfss := (c.rest nv).last nm, voleSize := nv, mpfssSize := nm, pos := p,
        sMade := n, log := l, sUsed := us }) := by
  have hpos := noise_pos ht
  have hle' := noise_le ht
  have hcc := hco.cols_
  unfold expandSender
  rw [VM.get_bind, if_neg (by omega), if_neg (by
      have h1 := hco.rows_; have h2 := hco.cols_; rw [h1, h2]; simp)]
  rw [VM.draw_bind]
  obtain ⟨g, hg, eg⟩ := create_usable (A.rand s.pos).junk ((List.range 32).map (A.rand s.pos).byte) (b := s.noise) (by simp)
    (by rw [hns]; omega)
  rw [eg, VM.lift_ok_bind, if_neg (by omega)]
  have hbound := sampleIndices_fine (lib := A.lib) (aes := A.aes) W.conforms (o := (o : Int)) (n := s.noise) (by omega) (by omega) A.fuel
    (set := []) hg List.nodup_nil (by simp) (by simp; omega)
  refine Safe.liftBind hbound.noUB (fun set eset => ?_)
  obtain ⟨hnd, hrange, hlen⟩ := hbound.get eset
  have hperm := W.orderA s.pos set
  have hlen' : set.length = t := by rw [hns] at hlen; omega
  generalize hidx : (A.rand s.pos).order set = indices at hperm ⊢
  have hnd' : indices.Nodup := hperm.nodup_iff.2 hnd
  have hrange' : ∀ i ∈ indices, 0 ≤ i ∧ i < (o : Int) := fun i hi => hrange i (hperm.mem_iff.1 hi)
  have hli : indices.length = t := by rw [hperm.length_eq, hlen']
  rw [VM.draw_bind, hns, vecOf_eq, VM.lift_ok_bind, VM.draw_bind, vecOf_eq, VM.lift_ok_bind]
  refine Safe.bind (mpfss_safe (h := h) (ws := [.keys, .atLeast (h.optimal t).toNat]) (m := o) ?_ ?_ ?_) ?_
  · intro l x hx hl
    exact index_safe W ht hle ho (by exact hs) (by simp) hli hrange' (by simp) hmu hmv hx hl
  · intro x hx
    exact index_coherent W.threadsA (by exact hs) hx
  · intro x hx
    rw [index_length hx]; simp
  rintro v0 s1 rs1 ⟨rfl, hl0, st, hst, rfl⟩
  obtain ⟨mu, emu, hmul, -, -⟩ := spread_eq (o := o) (y := (List.range t).map (A.rand (s.pos + 1)).elems) hli (by simp) hnd' hrange'
  rw [Int.toNat_natCast, emu, VM.lift_ok_bind, vecMat_eq hco, VM.lift_ok_bind, vecOp_eq (by simp; omega), VM.lift_ok_bind,
    vecMat_eq (cols := o) (by rw [hvl]; exact hco), VM.lift_ok_bind, vecOp_eq (by simp; omega), VM.lift_ok_bind, VM.modify_bind]
  have hlu : (List.zipWith (· + ·) (s.code.cols.map (dot s.sVole.u)) mu).length = o := by simp; omega
  have hlv : (List.zipWith (· - ·) (s.code.cols.map (dot s.sVole.v)) v0).length = o := by simp; omega
  generalize List.zipWith (· + ·) (s.code.cols.map (dot s.sVole.u)) mu = U at *
  generalize List.zipWith (· - ·) (s.code.cols.map (dot s.sVole.v)) v0 = V at *
  rw [getSenderCached_bind (by simp; omega) (by simp; omega), VM.modify_bind, getSenderCached_bind (by simp [SRes.rest]; omega) (by simp [SRes.rest]; omega)]
  exact Safe.ret ⟨rfl, ⟨s.sCached.u ++ U, s.sCached.v ++ V, s.sCached.ids ++ freshIds s.sMade.length o⟩, st, _, _, _, _,
    by simp; omega, by simp; omega, hst, rfl⟩

/-! ### Precomputation -/

/-- The receiver during a precomputation, with the seeds of row `i`. -/
structure ReceiverAt (h : Cuckoo.Hasher) (i t v : Nat) (r : VState T) : Prop where
  row : IsRow i t v
  coh : Coherent h r.mpfss
  noise : r.noise = t
  voleSize : r.voleSize = v
  mpfssSize : r.mpfssSize = h.optimal t
  lenV : r.rVole.w.length = v
  lenM : (r.rMpfss.w.length : Int) = h.optimal t

/-- The sender during a precomputation, with the seeds of row `i`. -/
structure SenderAt (h : Cuckoo.Hasher) (i t v : Nat) (s : VState T) : Prop where
  row : IsRow i t v
  coh : Coherent h s.mpfss
  noise : s.noise = t
  voleSize : s.voleSize = v
  mpfssSize : s.mpfssSize = h.optimal t
  lenV : s.sVole.u.length = v
  lenV' : s.sVole.v.length = s.sVole.u.length
  lenM : (s.sMpfss.u.length : Int) = h.optimal t
  lenM' : (s.sMpfss.v.length : Int) = h.optimal t
  lenC : s.sCached.v.length = s.sCached.u.length

omit [Scalar T] in
theorem RRes.last_len {c : RRes T} {n : Nat} (hn : n ≤ c.w.length) : (c.last n).w.length = n := by
  simp [RRes.last]; omega

omit [Scalar T] in
theorem RRes.rest_len {c : RRes T} {n : Nat} : (c.rest n).w.length = c.w.length - n := by
  simp [RRes.rest]

omit [Scalar T] in
theorem SRes.last_len' {c : SRes T} {n : Nat} (hn : n ≤ c.v.length) : (c.last n).v.length = n := by
  simp [SRes.last]; omega

omit [Scalar T] in
theorem SRes.rest_len' {c : SRes T} {n : Nat} : (c.rest n).v.length = c.v.length - n := by
  simp [SRes.rest]

theorem wantRows_done {batch o : Int} {row : Nat → List Want} {k i t v : Nat} (H : IsRow i t v) (ho : outputSizes[i]? = some o)
    (hg : o ≥ batch + h.optimal t + v) : wantRows h batch row (k + 1) i = [] := by
  unfold wantRows
  simp only [List.getD_eq_getElem?_getD, H.noise, H.seed, ho, Option.getD_some, Int.toNat_natCast]
  rw [if_pos hg]

theorem wantRows_next {batch o : Int} {row : Nat → List Want} {k i t v : Nat} (H : IsRow i t v) (ho : outputSizes[i]? = some o)
    (hg : ¬ o ≥ batch + h.optimal t + v) :
    wantRows h batch row (k + 1) i = row (h.optimal t).toNat ++ wantRows h batch row k (i + 1) := by
  conv_lhs => unfold wantRows
  simp only [List.getD_eq_getElem?_getD, H.noise, H.seed, ho, Option.getD_some, Int.toNat_natCast]
  rw [if_neg hg]

theorem lastRow_done {batch o : Int} {k i t v : Nat} (H : IsRow i t v) (ho : outputSizes[i]? = some o)
    (hg : o ≥ batch + h.optimal t + v) : lastRow h batch (k + 1) i = i := by
  unfold lastRow
  simp only [List.getD_eq_getElem?_getD, H.noise, H.seed, ho, Option.getD_some, Int.toNat_natCast]
  rw [if_pos hg]

theorem lastRow_next {batch o : Int} {k i t v : Nat} (H : IsRow i t v) (ho : outputSizes[i]? = some o)
    (hg : ¬ o ≥ batch + h.optimal t + v) : lastRow h batch (k + 1) i = lastRow h batch k (i + 1) := by
  conv_lhs => unfold lastRow
  simp only [List.getD_eq_getElem?_getD, H.noise, H.seed, ho, Option.getD_some, Int.toNat_natCast]
  rw [if_neg hg]

theorem bootReceiver_safe (W : Together h A B) {batch : Int} (hb0 : 1 ≤ batch) (hb1 : batch < 2 ^ 62) (k : Nat) :
    ∀ {i t v : Nat} {r : VState T}, i + k = 4 → ReceiverAt h i t v r →
    Safe (wantRows h batch (fun n => wantSeed A.lower ++ [.exactly n]) k i ++ rs) (bootReceiver A batch k i r)
      (fun _ r' rs' => rs' = rs ∧ ∃ t' v', ReceiverAt h (lastRow h batch k i) t' v' r') := by
  induction k with
  | zero =>
    intro i t v r hik H
    exact Safe.ret ⟨rfl, t, v, H⟩
  | succ k ih =>
    intro i t v r hik H
    obtain ⟨o, ho⟩ := outputSizes_get (i := i) (by omega)
    obtain ⟨t', v', H'⟩ := IsRow.exists (i := i + 1) (by omega)
    have hp := W.optimal_pos H.row.mem
    have hl := W.optimal_lt H.row.mem
    obtain ⟨b1, b2, b3⟩ := H.row.bounds
    obtain ⟨c1, c2, c3⟩ := H'.bounds
    have hp' := W.optimal_pos H'.mem
    have hl' := W.optimal_lt H'.mem
    have hR : r.mpfss.hasher = h := H.coh.hasher
    unfold bootReceiver
    rw [VM.get_bind, rd_of_get ho, VM.lift_ok_bind, H.mpfssSize, H.voleSize]
    rw [i64_ok (by omega) (by omega), Out.ok_bind, i64_ok (by omega) (by omega), VM.lift_ok_bind]
    by_cases hg : o ≥ batch + h.optimal t + v
    · rw [if_pos (by omega), wantRows_done H.row ho hg, lastRow_done H.row ho hg]
      exact Safe.ret ⟨rfl, t, v, H⟩
    · rw [if_neg (by omega), rd_of_get H'.seed, rd_of_get H'.noise, hR, VM.lift_ok_bind, VM.lift_ok_bind, numBuckets_eq W H'.mem,
        VM.lift_ok_bind, i32_ok (by omega) (by omega), VM.lift_ok_bind]
      obtain ⟨b, hb⟩ : ∃ b : Nat, (b : Int) = h.optimal t' := ⟨(h.optimal t').toNat, by omega⟩
      rw [← hb, show ((v' : Int) + (b : Int)) = ((v' + b : Nat) : Int) by push_cast; rfl, wantRows_next H.row ho hg, lastRow_next H.row ho hg, List.append_assoc,
        List.append_assoc]
      have hle : t ≤ v' + b := by have := noise_le H.row.mem; omega
      refine Safe.bind (common_safe W (vs := v) H.row.mem hle (by omega) H.coh H.noise (by omega) H.voleSize) ?_
      rintro - r1 rs1 ⟨rfl, st, c, p, h1, h3, rfl⟩
      refine Safe.bind (expandReceiver_safe W (t := t) (nv := v') (nm := b) H.row.mem hle (by omega) (by exact h1)
        (by exact H.noise) (by rw [H.lenV]; exact h3.toCodeOk) (by exact H.lenM) (by omega)) ?_
      rintro - r2 rs2 ⟨rfl, e, st2, q, n, us, l, hlen, hc2, rfl⟩
      rw [VM.modify_bind]
      refine ih (by omega) ⟨H', hc2, rfl, rfl, hb, ?_, ?_⟩
      · show (e.last v').w.length = v'
        rw [RRes.last_len (by omega)]
      · show (((e.rest v').last b).w.length : Int) = _
        rw [RRes.last_len (by rw [RRes.rest_len]; omega), hb]

theorem bootSender_safe (W : Together h A B) {batch : Int} (hb0 : 1 ≤ batch) (hb1 : batch < 2 ^ 62) (k : Nat) :
    ∀ {i t v : Nat} {s : VState T}, i + k = 4 → SenderAt h i t v s →
    Safe (wantRows h batch (fun n => wantSeed A.lower ++ [.keys, .atLeast n]) k i ++ rs) (bootSender A batch k i s)
      (fun _ s' rs' => rs' = rs ∧ ∃ t' v', SenderAt h (lastRow h batch k i) t' v' s') := by
  induction k with
  | zero =>
    intro i t v s hik H
    exact Safe.ret ⟨rfl, t, v, H⟩
  | succ k ih =>
    intro i t v s hik H
    obtain ⟨o, ho⟩ := outputSizes_get (i := i) (by omega)
    obtain ⟨t', v', H'⟩ := IsRow.exists (i := i + 1) (by omega)
    have hp := W.optimal_pos H.row.mem
    have hl := W.optimal_lt H.row.mem
    obtain ⟨b1, b2, b3⟩ := H.row.bounds
    obtain ⟨c1, c2, c3⟩ := H'.bounds
    have hp' := W.optimal_pos H'.mem
    have hl' := W.optimal_lt H'.mem
    have hR : s.mpfss.hasher = h := H.coh.hasher
    unfold bootSender
    rw [VM.get_bind, rd_of_get ho, VM.lift_ok_bind, H.mpfssSize, H.voleSize]
    rw [i64_ok (by omega) (by omega), Out.ok_bind, i64_ok (by omega) (by omega), VM.lift_ok_bind]
    by_cases hg : o ≥ batch + h.optimal t + v
    · rw [if_pos (by omega), wantRows_done H.row ho hg, lastRow_done H.row ho hg]
      exact Safe.ret ⟨rfl, t, v, H⟩
    · rw [if_neg (by omega), rd_of_get H'.seed, rd_of_get H'.noise, hR, VM.lift_ok_bind, VM.lift_ok_bind, numBuckets_eq W H'.mem,
        VM.lift_ok_bind, i32_ok (by omega) (by omega), VM.lift_ok_bind]
      obtain ⟨b, hb⟩ : ∃ b : Nat, (b : Int) = h.optimal t' := ⟨(h.optimal t').toNat, by omega⟩
      rw [← hb, show ((v' : Int) + (b : Int)) = ((v' + b : Nat) : Int) by push_cast; rfl, wantRows_next H.row ho hg, lastRow_next H.row ho hg, List.append_assoc,
        List.append_assoc]
      have hle : t ≤ v' + b := by have := noise_le H.row.mem; omega
      refine Safe.bind (common_safe W (vs := v) H.row.mem hle (by omega) H.coh H.noise (by omega) H.voleSize) ?_
      rintro - s1 rs1 ⟨rfl, st, c, p, h1, h3, rfl⟩
      refine Safe.bind (expandSender_safe W (t := t) (nv := v') (nm := b) H.row.mem hle (by omega) (by exact h1)
        (by exact H.noise) (by rw [H.lenV]; exact h3.toCodeOk) (by exact H.lenV') (by exact H.lenM) (by exact H.lenM')
        (by exact H.lenC) (by omega)) ?_
      rintro - s2 rs2 ⟨rfl, e, st2, q, n, us, l, hlen, hlen', hc2, rfl⟩
      rw [VM.modify_bind]
      refine ih (by omega) ⟨H', hc2, rfl, rfl, hb, ?_, ?_, ?_, ?_, ?_⟩
      · show (e.last v').u.length = v'
        rw [SRes.last_len (by omega)]
      · show (e.last v').v.length = (e.last v').u.length
        rw [SRes.last_len (by omega), SRes.last_len' (by omega)]
      · show (((e.rest v').last b).u.length : Int) = _
        rw [SRes.last_len (by rw [SRes.rest_len]; omega), hb]
      · show (((e.rest v').last b).v.length : Int) = _
        rw [SRes.last_len' (by rw [SRes.rest_len']; omega), hb]
      · show ((e.rest v').rest b).v.length = ((e.rest v').rest b).u.length
        rw [SRes.rest_len, SRes.rest_len, SRes.rest_len', SRes.rest_len']; omega

theorem finish_safe (W : Together h A B) {batch : Int} (hb0 : 1 ≤ batch)
    {i t v : Nat} {s : VState T} (row : IsRow i t v) (coh : Coherent h s.mpfss) (noise : s.noise = t) (vole : s.voleSize = v)
    (mpfss : s.mpfssSize = h.optimal t) :
    Safe (wantSeed A.lower ++ rs) (finishPrecompute A batch s)
      (fun _ s' rs' => rs' = rs ∧ ∃ b st c p, Coherent h st ∧ s' = { s with batch := b, mpfss := st, code := c, pos := p } ∧
        Ready h s' t v b.toNat) := by
  have hp := W.optimal_pos row.mem
  have hl := W.optimal_lt row.mem
  obtain ⟨b1, b2, b3⟩ := row.bounds
  unfold finishPrecompute
  rw [VM.get_bind, rd_of_get (a := 10616092) rfl, VM.lift_ok_bind, mpfss, vole,
    i32_ok (by omega) (by omega), Out.ok_bind, i32_ok (by omega) (by omega), VM.lift_ok_bind, VM.modify_bind,
    VM.get_bind]
  dsimp only
  obtain ⟨b, hb⟩ : ∃ b : Nat, (b : Int) = min batch (10616092 - h.optimal t - v) := ⟨(min batch (10616092 - h.optimal t - v)).toNat, by omega⟩
  rw [← hb, mpfss, vole,
    show (b : Int) + v + h.optimal t = ((b + v + (h.optimal t).toNat : Nat) : Int) by push_cast; omega]
  refine (common_safe W (o := b + v + (h.optimal t).toNat) (vs := v) row.mem (by omega) (by omega) (by exact coh) (by exact noise) (by omega) rfl).mono ?_
  rintro - s1 rs1 ⟨rfl, st, c, p, h1, h3, rfl⟩
  refine ⟨rfl, b, st, c, p, h1, by rw [← mpfss, ← vole], ?_⟩
  exact ⟨⟨i, row⟩, noise, rfl, rfl, by simp, by omega, by omega, by simpa using h3.toCodeOk⟩

/-- The receiver after its precomputation. -/
structure ReceiverReady (h : Cuckoo.Hasher) (t v b : Nat) (r : VState T) : Prop where
  coh : Coherent h r.mpfss
  ready : Ready h r t v b
  lenV : r.rVole.w.length = v
  lenM : (r.rMpfss.w.length : Int) = h.optimal t
  done : r.rDone = true

/-- The sender after its precomputation. -/
structure SenderReady (h : Cuckoo.Hasher) (t v b : Nat) (s : VState T) : Prop where
  coh : Coherent h s.mpfss
  ready : Ready h s t v b
  lenV : s.sVole.u.length = v
  lenV' : s.sVole.v.length = s.sVole.u.length
  lenM : (s.sMpfss.u.length : Int) = h.optimal t
  lenM' : (s.sMpfss.v.length : Int) = h.optimal t
  lenC : s.sCached.v.length = s.sCached.u.length
  done : s.sDone = true

theorem lastBuckets_eq {batch : Int} {t v : Nat} (H : IsRow (lastRow h batch 4 0) t v) : lastBuckets h batch = (h.optimal t).toNat := by
  unfold lastBuckets
  simp only [List.getD_eq_getElem?_getD, H.noise, Option.getD_some, Int.toNat_natCast]

set_option maxHeartbeats 1000000 in
theorem precomputeReceiver_safe [LawfulScalar T] (W : Together h A B) {batch : Int} (hb1 : batch < 2 ^ 62) {d : T} {r : VState T} (hr : Coherent h r.mpfss) :
    Safe (receiverWants h batch A.lower ++ rs) (precomputeReceiver A batch d r)
      (fun _ r' rs' => rs' = rs ∧ ∃ t v b, lastBuckets h batch = (h.optimal t).toNat ∧ ReceiverReady h t v b r') := by
  by_cases hb0 : batch < 1
  · unfold precomputeReceiver
    rw [if_pos hb0]
    exact Safe.fail (o := .err _ _) trivial (by intro a e; cases e)
  rw [precomputeReceiver_eq]
  refine Safe.bind (Q := fun _ r' rs' => rs' = wantSeed A.lower ++ rs ∧ ∃ t' v', ReceiverAt h (lastRow h batch 4 0) t' v' r') ?_ ?_
  · unfold frontReceiver receiverWants
    have hm : ((98 : Nat) : Int) ∈ noiseSizes := by simp [noiseSizes]
    have hp := W.optimal_pos hm
    have hl := W.optimal_lt hm
    obtain ⟨b, hb⟩ : ∃ b : Nat, (b : Int) = h.optimal 98 := ⟨(h.optimal 98).toNat, by omega⟩
    rw [if_neg hb0, start_bind W hr.hasher, ← hb,
      show (1589 : Int) + (b : Int) = ((1589 + b : Nat) : Int) by push_cast; rfl, Int.toNat_natCast]
    rw [VM.draw_bind, vecOf_eq, VM.lift_ok_bind, VM.modify_bind]
    dsimp only
    have hx : ((List.range (1589 + b)).map (A.rand r.pos).elems).length = 1589 + b := by simp
    generalize (List.range (1589 + b)).map (A.rand r.pos).elems = x at *
    refine Safe.run (fun l o h1 => ?_)
    obtain ⟨rfl, w, rfl, hw⟩ := Gilboa.value_reads (by rw [hx]; exact goodLength (by omega) (by omega)) h1
    refine ⟨rfl, trivial, fun a ea => ?_⟩
    cases ea
    rw [VM.modify_bind, VM.run_recv_bind]
    refine Safe.recv (fun m hm => ?_)
    cases m with
    | closed => exact Safe.fail (o := .throws _) trivial (by intro a e; cases e)
    | elems v =>
      have hv : v.length = 1589 + b := hm
      rw [show PM.unElems (Msg.elems v) = .ok v from rfl, VM.lift_ok_bind, vecOp_eq (by omega), VM.lift_ok_bind, VM.modify_bind, VM.get_bind]
      dsimp only
      have lw : (List.zipWith (· + ·) w v).length = 1589 + b := by simp; omega
      generalize List.zipWith (· + ·) w v = w' at *
      rw [show (1589 : Int) = ((1589 : Nat) : Int) from rfl]
      rw [getReceiverCached_bind (by show _ ≤ w'.length; omega), VM.modify_bind, getReceiverCached_bind (by simp [RRes.rest]; omega), VM.modify_bind]
      dsimp only
      have hap : ((wantRows h batch (fun n => wantSeed A.lower ++ [.exactly n]) 4 0 ++ wantSeed A.lower).append rs) =
          wantRows h batch (fun n => wantSeed A.lower ++ [.exactly n]) 4 0 ++ (wantSeed A.lower ++ rs) := List.append_assoc _ _ _
      have hcu : (⟨w', d, freshIds r.rMade.length (((1589 + b : Nat) : Int)).toNat⟩ : RRes T).w.length = 1589 + b := lw
      generalize (⟨w', d, freshIds r.rMade.length (((1589 + b : Nat) : Int)).toNat⟩ : RRes T) = e at *
      refine hap ▸ bootReceiver_safe W (by omega) hb1 (seedSizes.length - 1) (i := 0) (t := 98) (v := 1589) rfl
        ⟨⟨rfl, rfl⟩, by exact hr, by rfl, by rfl, by exact hb, ?_, ?_⟩
      · show (e.last 1589).w.length = 1589
        rw [RRes.last_len (by omega)]
      · show (((e.rest 1589).last b).w.length : Int) = _
        rw [RRes.last_len (by rw [RRes.rest_len]; omega), hb]
    | _ => exact absurd hm id
  · rintro - r1 rs1 ⟨rfl, t, v, H⟩
    refine Safe.bind (finish_safe W (by omega) H.row H.coh H.noise H.voleSize H.mpfssSize) ?_
    rintro - r2 rs2 ⟨rfl, b, st, c, p, h1, rfl, R⟩
    exact Safe.ret ⟨rfl, t, v, _, lastBuckets_eq H.row, h1, ⟨R.1, R.2, R.3, R.4, R.5, R.6, R.7, R.8⟩, H.lenV, H.lenM, rfl⟩

set_option maxHeartbeats 1000000 in
theorem precomputeSender_safe [LawfulScalar T] (W : Together h A B) {batch : Int} (hb1 : batch < 2 ^ 62) {s : VState T} (hs : Coherent h s.mpfss) :
    Safe (senderWants h batch A.lower ++ rs) (precomputeSender A batch s)
      (fun _ s' rs' => rs' = rs ∧ ∃ t v b, lastBuckets h batch = (h.optimal t).toNat ∧ SenderReady h t v b s') := by
  by_cases hb0 : batch < 1
  · unfold precomputeSender
    rw [if_pos hb0]
    exact Safe.fail (o := .err _ _) trivial (by intro a e; cases e)
  rw [precomputeSender_eq]
  refine Safe.bind (Q := fun _ s' rs' => rs' = wantSeed A.lower ++ rs ∧ ∃ t' v', SenderAt h (lastRow h batch 4 0) t' v' s') ?_ ?_
  · unfold frontSender senderWants
    have hm : ((98 : Nat) : Int) ∈ noiseSizes := by simp [noiseSizes]
    have hp := W.optimal_pos hm
    have hl := W.optimal_lt hm
    obtain ⟨b, hb⟩ : ∃ b : Nat, (b : Int) = h.optimal 98 := ⟨(h.optimal 98).toNat, by omega⟩
    rw [if_neg hb0, start_bind W hs.hasher, ← hb,
      show (1589 : Int) + (b : Int) = ((1589 + b : Nat) : Int) by push_cast; rfl]
    rw [VM.draw_bind, vecOf_eq, VM.lift_ok_bind, VM.draw_bind, vecOf_eq, VM.lift_ok_bind, VM.draw_bind, vecOf_eq, VM.lift_ok_bind, VM.modify_bind]
    dsimp only
    have hu : ((List.range (1589 + b)).map (A.rand (s.pos + 1)).elems).length = 1589 + b := by simp
    have hv : ((List.range (1589 + b)).map (A.rand (s.pos + 1 + 1)).elems).length = 1589 + b := by simp
    have hw : ((List.range (1589 + b)).map (A.rand s.pos).elems).length = 1589 + b := by simp
    generalize (List.range (1589 + b)).map (A.rand (s.pos + 1)).elems = u at *
    generalize (List.range (1589 + b)).map (A.rand (s.pos + 1 + 1)).elems = v at *
    generalize (List.range (1589 + b)).map (A.rand s.pos).elems = w at *
    refine Safe.run (fun l o h1 => ?_)
    obtain ⟨rfl, rfl⟩ := Gilboa.vector_reads (by omega) (by rw [hu]; exact goodLength (by omega) (by omega)) h1
    refine ⟨rfl, trivial, fun a ea => ?_⟩
    cases ea
    have l2 : (Gilboa.vectorOut A.sec (A.rand s.pos).m0 (A.rand s.pos).rnd u.length).length = u.length := by simp [Gilboa.vectorOut]
    generalize Gilboa.vectorOut A.sec (A.rand s.pos).m0 (A.rand s.pos).rnd u.length = z at *
    rw [vecOp_eq (by omega), VM.lift_ok_bind, VM.run_send_bind]
    refine Safe.send ?_
    rw [VM.get_bind]
    dsimp only
    rw [show (1589 : Int) = ((1589 : Nat) : Int) from rfl]
    rw [getSenderCached_bind (by show _ ≤ u.length; omega) (by show _ ≤ v.length; omega), VM.modify_bind,
      getSenderCached_bind (by simp [SRes.rest]; omega) (by simp [SRes.rest]; omega), VM.modify_bind]
    dsimp only
    rw [List.append_assoc]
    have hcu : (⟨u, v, freshIds s.sMade.length (((1589 + b : Nat) : Int)).toNat⟩ : SRes T).u.length = 1589 + b := hu
    have hcv : (⟨u, v, freshIds s.sMade.length (((1589 + b : Nat) : Int)).toNat⟩ : SRes T).v.length = 1589 + b := hv
    generalize (⟨u, v, freshIds s.sMade.length (((1589 + b : Nat) : Int)).toNat⟩ : SRes T) = e at *
    refine bootSender_safe W (by omega) hb1 (seedSizes.length - 1) (i := 0) (t := 98) (v := 1589) rfl
      ⟨⟨rfl, rfl⟩, by exact hs, by rfl, by rfl, by exact hb, ?_, ?_, ?_, ?_, ?_⟩
    · show (e.last 1589).u.length = 1589
      rw [SRes.last_len (by omega)]
    · show (e.last 1589).v.length = (e.last 1589).u.length
      rw [SRes.last_len (by omega), SRes.last_len' (by omega)]
    · show (((e.rest 1589).last b).u.length : Int) = _
      rw [SRes.last_len (by rw [SRes.rest_len]; omega), hb]
    · show (((e.rest 1589).last b).v.length : Int) = _
      rw [SRes.last_len' (by rw [SRes.rest_len']; omega), hb]
    · show ((e.rest 1589).rest b).v.length = ((e.rest 1589).rest b).u.length
      rw [SRes.rest_len, SRes.rest_len, SRes.rest_len', SRes.rest_len']; omega
  · rintro - s1 rs1 ⟨rfl, t, v, H⟩
    refine Safe.bind (finish_safe W (by omega) H.row H.coh H.noise H.voleSize H.mpfssSize) ?_
    rintro - s2 rs2 ⟨rfl, b, st, c, p, h1, rfl, R⟩
    exact Safe.ret ⟨rfl, t, v, _, lastBuckets_eq H.row, h1, ⟨R.1, R.2, R.3, R.4, R.5, R.6, R.7, R.8⟩, H.lenV, H.lenV', H.lenM, H.lenM', H.lenC, rfl⟩

/-! ### Runs -/

/-- What is wanted in each of `k` expansions. -/
abbrev more (ws : List Want) (k : Nat) : List Want := (List.replicate k ws).flatten

theorem more_succ (ws : List Want) (k : Nat) : more ws (k + 1) = ws ++ more ws k := by
  simp [more, List.replicate_succ]

theorem runExpandReceiver_safe (W : Together h A B) {t v b : Nat} {r : VState T} (H : ReceiverReady h t v b r) :
    Safe ([.exactly (h.optimal t).toNat] ++ rs) (expandReceiver A (r.batch + r.voleSize + r.mpfssSize) r.voleSize r.mpfssSize r)
      (fun _ r' rs' => rs' = rs ∧ ReceiverReady h t v b r') := by
  obtain ⟨i, hi⟩ := H.ready.row
  obtain ⟨b1, b2, b3⟩ := hi.bounds
  have hp := W.optimal_pos hi.mem
  have hl := H.ready.le
  obtain ⟨m, hm⟩ : ∃ m : Nat, (m : Int) = h.optimal t := ⟨(h.optimal t).toNat, by omega⟩
  have hm' : (h.optimal t).toNat = m := by omega
  have hc := H.ready.code
  rw [H.ready.batch, H.ready.vole, H.ready.mpfss]
  have := expandReceiver_safe (rs := rs) W (t := t) (nv := v) (nm := m) (o := b + v + m) hi.mem (by omega) (by omega) H.coh H.ready.noise
    (by rw [H.lenV, ← hm']; exact hc) H.lenM (by omega)
  rw [← hm, show (b : Int) + v + m = ((b + v + m : Nat) : Int) by push_cast; rfl, Int.toNat_natCast]
  rw [hm'] at this
  refine this.mono ?_
  rintro - r1 rs1 ⟨rfl, e, st, q, n, us, l, hlen, h2, rfl⟩
  refine ⟨rfl, h2, ⟨H.ready.row, H.ready.noise, rfl, hm, H.ready.batch, H.ready.pos, H.ready.le, H.ready.code⟩, ?_, ?_, H.done⟩
  · show (e.last v).w.length = v
    rw [RRes.last_len (by omega)]
  · show (((e.rest v).last m).w.length : Int) = _
    rw [RRes.last_len (by rw [RRes.rest_len]; omega), hm]

theorem runExpandSender_safe (W : Together h A B) {t v b : Nat} {s : VState T} (H : SenderReady h t v b s) :
    Safe ([.keys, .atLeast (h.optimal t).toNat] ++ rs) (expandSender A (s.batch + s.voleSize + s.mpfssSize) s.voleSize s.mpfssSize s)
      (fun _ s' rs' => rs' = rs ∧ SenderReady h t v b s') := by
  obtain ⟨i, hi⟩ := H.ready.row
  obtain ⟨b1, b2, b3⟩ := hi.bounds
  have hp := W.optimal_pos hi.mem
  have hl := H.ready.le
  obtain ⟨m, hm⟩ : ∃ m : Nat, (m : Int) = h.optimal t := ⟨(h.optimal t).toNat, by omega⟩
  have hm' : (h.optimal t).toNat = m := by omega
  have hc := H.ready.code
  rw [H.ready.batch, H.ready.vole, H.ready.mpfss]
  have := expandSender_safe (rs := rs) W (t := t) (nv := v) (nm := m) (o := b + v + m) hi.mem (by omega) (by omega) H.coh H.ready.noise
    (by rw [H.lenV, ← hm']; exact hc) H.lenV' H.lenM H.lenM' H.lenC (by omega)
  rw [← hm, show (b : Int) + v + m = ((b + v + m : Nat) : Int) by push_cast; rfl, Int.toNat_natCast]
  rw [hm'] at this
  refine this.mono ?_
  rintro - s1 rs1 ⟨rfl, e, st, q, n, us, l, hlen, hlen', h2, rfl⟩
  refine ⟨rfl, h2, ⟨H.ready.row, H.ready.noise, rfl, hm, H.ready.batch, H.ready.pos, H.ready.le, H.ready.code⟩, ?_, ?_, ?_, ?_, ?_, H.done⟩
  · show (e.last v).u.length = v
    rw [SRes.last_len (by omega)]
  · show (e.last v).v.length = (e.last v).u.length
    rw [SRes.last_len (by omega), SRes.last_len' (by omega)]
  · show (((e.rest v).last m).u.length : Int) = _
    rw [SRes.last_len (by rw [SRes.rest_len]; omega), hm]
  · show (((e.rest v).last m).v.length : Int) = _
    rw [SRes.last_len' (by rw [SRes.rest_len']; omega), hm]
  · show ((e.rest v).rest m).v.length = ((e.rest v).rest m).u.length
    rw [SRes.rest_len, SRes.rest_len, SRes.rest_len', SRes.rest_len']; omega

omit [Scalar T] in
theorem ReceiverReady.cached {t v b : Nat} {r : VState T} (H : ReceiverReady h t v b r) (c : RRes T) :
    ReceiverReady h t v b { r with rCached := c } :=
  ⟨H.coh, ⟨H.ready.1, H.ready.2, H.ready.3, H.ready.4, H.ready.5, H.ready.6, H.ready.7, H.ready.8⟩, H.lenV, H.lenM, H.done⟩

omit [Scalar T] in
theorem SenderReady.cached {t v b : Nat} {s : VState T} (H : SenderReady h t v b s) {c : SRes T} (hc : c.v.length = c.u.length) :
    SenderReady h t v b { s with sCached := c } :=
  ⟨H.coh, ⟨H.ready.1, H.ready.2, H.ready.3, H.ready.4, H.ready.5, H.ready.6, H.ready.7, H.ready.8⟩, H.lenV, H.lenV', H.lenM, H.lenM', hc, H.done⟩

theorem receiverLoop_safe [LawfulScalar T] (W : Together h A B) {t v b n k0 : Nat} (f : Nat) : ∀ {k : Nat} {copied : Nat} {e : RRes T} {r : VState T},
    ReceiverReady h t v b r → e.w.length = n → copied ≤ n → f + k0 ≤ k →
    Safe (more [.exactly (h.optimal t).toNat] k) (runReceiverLoop A n f e copied r)
      (fun _ r' rs' => ReceiverReady h t v b r' ∧ ∃ k', k0 ≤ k' ∧ rs' = more [.exactly (h.optimal t).toNat] k') := by
  induction f with
  | zero =>
    intro k copied e r _ _ _ _
    exact Safe.fail (o := .diverge) trivial (by intro a e; cases e)
  | succ f ih =>
    intro k copied e r H he hc hk
    by_cases hdone : n ≤ copied
    · rw [receiverLoop_done hdone]
      exact Safe.ret ⟨H, k, by omega, rfl⟩
    unfold runReceiverLoop
    rw [if_pos (by omega), VM.get_bind]
    by_cases hle : copied + r.rCached.w.length ≤ n
    · rw [if_pos (by omega), VM.bind_assoc, setSeg_eq (by omega), VM.lift_ok_bind, VM.bind_assoc, VM.modify_bind, VM.pure_bind']
      dsimp only
      have hH := H.cached { r.rCached with w := [], ids := [] }
      by_cases hlt : copied + r.rCached.w.length < n
      · rw [if_pos (by omega), VM.get_bind]
        obtain ⟨k1, rfl⟩ : ∃ k1, k = k1 + 1 := ⟨k - 1, by omega⟩
        rw [more_succ]
        refine Safe.bind (runExpandReceiver_safe W hH) ?_
        rintro - r1 rs1 ⟨rfl, H1⟩
        exact ih H1 (by simp; omega) (by omega) (by omega)
      · rw [if_neg (by omega)]
        exact ih hH (by simp; omega) (by omega) (by omega)
    · rw [if_neg (by omega), show (n : Int) - copied = ((n - copied : Nat) : Int) by omega]
      rw [VM.bind_assoc, getReceiverCached_bind (by omega), VM.bind_assoc, setTail_eq (by omega) (by simp [RRes.last]; omega),
        VM.lift_ok_bind, VM.pure_bind']
      dsimp only
      rw [Int.toNat_natCast, if_neg (by omega)]
      exact ih (H.cached _) (by simp [RRes.last]; omega) (Nat.le_refl _) (by omega)

theorem senderLoop_safe [LawfulScalar T] (W : Together h A B) {t v b n k0 : Nat} (f : Nat) : ∀ {k : Nat} {copied : Nat} {e : SRes T} {s : VState T},
    SenderReady h t v b s → e.u.length = n → e.v.length = n → copied ≤ n → f + k0 ≤ k →
    Safe (more [.keys, .atLeast (h.optimal t).toNat] k) (runSenderLoop A n f e copied s)
      (fun _ s' rs' => SenderReady h t v b s' ∧ ∃ k', k0 ≤ k' ∧ rs' = more [.keys, .atLeast (h.optimal t).toNat] k') := by
  induction f with
  | zero =>
    intro k copied e s _ _ _ _ _
    exact Safe.fail (o := .diverge) trivial (by intro a e; cases e)
  | succ f ih =>
    intro k copied e s H he he' hc hk
    by_cases hdone : n ≤ copied
    · rw [senderLoop_done hdone]
      exact Safe.ret ⟨H, k, by omega, rfl⟩
    have hcl := H.lenC
    unfold runSenderLoop
    rw [if_pos (by omega), VM.get_bind]
    by_cases hle : copied + s.sCached.u.length ≤ n
    · rw [if_pos (by omega), VM.bind_assoc, setSeg_eq (by omega), VM.lift_ok_bind, VM.bind_assoc, setSeg_eq (by omega), VM.lift_ok_bind,
        VM.bind_assoc, VM.modify_bind, VM.pure_bind']
      dsimp only
      have hH := H.cached (c := ⟨[], [], []⟩) rfl
      by_cases hlt : copied + s.sCached.u.length < n
      · rw [if_pos (by omega), VM.get_bind]
        obtain ⟨k1, rfl⟩ : ∃ k1, k = k1 + 1 := ⟨k - 1, by omega⟩
        rw [more_succ]
        refine Safe.bind (runExpandSender_safe W hH) ?_
        rintro - s1 rs1 ⟨rfl, H1⟩
        exact ih H1 (by simp; omega) (by simp; omega) (by omega) (by omega)
      · rw [if_neg (by omega)]
        exact ih hH (by simp; omega) (by simp; omega) (by omega) (by omega)
    · rw [if_neg (by omega), show (n : Int) - copied = ((n - copied : Nat) : Int) by omega]
      rw [VM.bind_assoc, getSenderCached_bind (by omega) (by omega), VM.bind_assoc, setTail_eq (by omega) (by simp [SRes.last]; omega),
        VM.lift_ok_bind, VM.bind_assoc, setTail_eq (by omega) (by simp [SRes.last]; omega), VM.lift_ok_bind, VM.pure_bind']
      dsimp only
      rw [Int.toNat_natCast, if_neg (by omega)]
      exact ih (H.cached (by simp [SRes.rest]; omega)) (by simp [SRes.last]; omega) (by simp [SRes.last]; omega) (Nat.le_refl _) (by omega)

theorem receiverRest_safe [LawfulScalar T] (W : Together h A B) {t v b k0 k : Nat} {n : Int} (hn : 0 ≤ n) {r : VState T} (H : ReceiverReady h t v b r)
    (hk : A.fuel + k0 ≤ k) : Safe (more [.exactly (h.optimal t).toNat] k) (receiverRest A n r)
      (fun _ r' rs' => ReceiverReady h t v b r' ∧ ∃ k', k0 ≤ k' ∧ rs' = more [.exactly (h.optimal t).toNat] k') := by
  obtain ⟨n, rfl⟩ := Int.eq_ofNat_of_zero_le hn
  unfold receiverRest
  rw [VM.get_bind]
  by_cases hle : n ≤ r.rCached.w.length
  · rw [getReceiver_eq hle]
    dsimp only
    rw [VM.modify_bind]
    exact Safe.ret ⟨H.cached _, k, by omega, rfl⟩
  · have e2 : getReceiver r.rCached (n : Int) = .err .outOfRange "Requested cached receiver elements" := by
      unfold getReceiver; rw [if_pos (by omega)]
    rw [e2]
    dsimp only
    rw [VM.draw_bind, vecOf_eq, VM.lift_ok_bind]
    refine receiverLoop_safe W _ ?_ (by simp) (Nat.zero_le _) hk
    exact ⟨H.coh, ⟨H.ready.1, H.ready.2, H.ready.3, H.ready.4, H.ready.5, H.ready.6, H.ready.7, H.ready.8⟩, H.lenV, H.lenM, H.done⟩

theorem runReceiver_safe [LawfulScalar T] (W : Together h A B) {t v b k0 k : Nat} {n : Int} (hn : 0 ≤ n) {r : VState T} (H : ReceiverReady h t v b r)
    (hk : A.fuel + k0 ≤ k) : Safe (more [.exactly (h.optimal t).toNat] k) (runReceiver A n r)
      (fun _ r' rs' => ReceiverReady h t v b r' ∧ ∃ k', k0 ≤ k' ∧ rs' = more [.exactly (h.optimal t).toNat] k') := by
  rw [runReceiver_eq, if_pos H.done]
  exact receiverRest_safe W hn H hk

theorem senderRest_safe [LawfulScalar T] (W : Together h A B) {t v b k0 k : Nat} {n : Int} (hn : 0 ≤ n) {s : VState T} (H : SenderReady h t v b s)
    (hk : A.fuel + k0 ≤ k) : Safe (more [.keys, .atLeast (h.optimal t).toNat] k) (senderRest A n s)
      (fun _ s' rs' => SenderReady h t v b s' ∧ ∃ k', k0 ≤ k' ∧ rs' = more [.keys, .atLeast (h.optimal t).toNat] k') := by
  obtain ⟨n, rfl⟩ := Int.eq_ofNat_of_zero_le hn
  have hcl := H.lenC
  unfold senderRest
  rw [VM.get_bind]
  by_cases hle : n ≤ s.sCached.u.length
  · rw [getSender_eq hle (by omega)]
    dsimp only
    rw [VM.modify_bind]
    exact Safe.ret ⟨H.cached (by simp [SRes.rest]; omega), k, by omega, rfl⟩
  · have e2 : getSender s.sCached (n : Int) = .err .outOfRange "Requested cached sender elements" := by
      unfold getSender; rw [if_pos (by omega)]
    rw [e2]
    dsimp only
    rw [VM.draw_bind, vecOf_eq, VM.lift_ok_bind, VM.draw_bind, vecOf_eq, VM.lift_ok_bind]
    refine senderLoop_safe W _ ?_ (by simp) (by simp) (Nat.zero_le _) hk
    exact ⟨H.coh, ⟨H.ready.1, H.ready.2, H.ready.3, H.ready.4, H.ready.5, H.ready.6, H.ready.7, H.ready.8⟩, H.lenV, H.lenV', H.lenM, H.lenM', H.lenC, H.done⟩

theorem runSender_safe [LawfulScalar T] (W : Together h A B) {t v b k0 k : Nat} {n : Int} (hn : 0 ≤ n) {s : VState T} (H : SenderReady h t v b s)
    (hk : A.fuel + k0 ≤ k) : Safe (more [.keys, .atLeast (h.optimal t).toNat] k) (runSender A n s)
      (fun _ s' rs' => SenderReady h t v b s' ∧ ∃ k', k0 ≤ k' ∧ rs' = more [.keys, .atLeast (h.optimal t).toNat] k') := by
  rw [runSender_eq, if_pos H.done]
  exact senderRest_safe W hn H hk

theorem receives_safe [LawfulScalar T] (W : Together h A B) {t v b : Nat} (ns : List Int) : ∀ {k : Nat} {r : VState T}, (∀ n ∈ ns, 0 ≤ n) →
    ReceiverReady h t v b r → A.fuel * ns.length ≤ k →
    Safe (more [.exactly (h.optimal t).toNat] k) (receives A ns r) (fun _ _ _ => True) := by
  induction ns with
  | nil => intro k r _ _ _; exact Safe.ret trivial
  | cons n ns ih =>
    intro k r hn H hk
    unfold receives
    refine Safe.bind (runReceiver_safe W (k0 := A.fuel * ns.length) (hn n (by simp)) H (by
      rw [List.length_cons, Nat.mul_succ] at hk; omega)) ?_
    rintro a r1 rs1 ⟨H1, k', hk', rfl⟩
    refine Safe.bind (ih (fun m hm => hn m (by simp [hm])) H1 hk') ?_
    intro _ _ _ _
    exact Safe.ret trivial

theorem sends_safe [LawfulScalar T] (W : Together h A B) {t v b : Nat} (ns : List Int) : ∀ {k : Nat} {s : VState T}, (∀ n ∈ ns, 0 ≤ n) →
    SenderReady h t v b s → A.fuel * ns.length ≤ k →
    Safe (more [.keys, .atLeast (h.optimal t).toNat] k) (sends A ns s) (fun _ _ _ => True) := by
  induction ns with
  | nil => intro k s _ _ _; exact Safe.ret trivial
  | cons n ns ih =>
    intro k s hn H hk
    unfold sends
    refine Safe.bind (runSender_safe W (k0 := A.fuel * ns.length) (hn n (by simp)) H (by
      rw [List.length_cons, Nat.mul_succ] at hk; omega)) ?_
    rintro a s1 rs1 ⟨H1, k', hk', rfl⟩
    refine Safe.bind (ih (fun m hm => hn m (by simp [hm])) H1 hk') ?_
    intro _ _ _ _
    exact Safe.ret trivial

theorem receives_new_safe [LawfulScalar T] (W : Together h A B) {n : Int} (h0 : 0 ≤ n) (h1 : n < 2 ^ 62) {ns : List Int} (hn : ∀ n ∈ ns, 0 ≤ n) {r : VState T}
    (hr : Coherent h r.mpfss) (hd : r.rDone = false) {k : Nat} (hk : A.fuel * (ns.length + 1) ≤ k) :
    Safe (receiverWants h n A.lower ++ receiverMore h n k) (receives A (n :: ns) r) (fun _ _ _ => True) := by
  unfold receives
  refine Safe.bind (Q := fun _ r' rs' => ∃ t v b, ReceiverReady h t v b r' ∧
    ∃ k', A.fuel * ns.length ≤ k' ∧ rs' = more [.exactly (h.optimal t).toNat] k') ?_ ?_
  · rw [runReceiver_eq, hd, if_neg (by simp)]
    refine Safe.bind (Q := fun _ r' rs' => rs' = receiverMore h n k ∧ ∃ t v b, lastBuckets h n = (h.optimal t).toNat ∧ ReceiverReady h t v b r') ?_ ?_
    · unfold precomputeReceiver'
      rw [VM.draw_bind]
      exact precomputeReceiver_safe W h1 (r := { r with pos := r.pos + 1 }) hr
    · rintro - r1 rs1 ⟨rfl, t, v, b, hb, H⟩
      unfold receiverMore
      rw [hb]
      refine (receiverRest_safe W (k0 := A.fuel * ns.length) h0 H (by rw [Nat.mul_succ] at hk; omega)).mono ?_
      rintro - r2 rs2 ⟨H2, k', hk', rfl⟩
      exact ⟨t, v, b, H2, k', hk', rfl⟩
  · rintro - r1 rs1 ⟨t, v, b, H, k', hk', rfl⟩
    refine Safe.bind (receives_safe W ns hn H hk') ?_
    intro _ _ _ _
    exact Safe.ret trivial

theorem sends_new_safe [LawfulScalar T] (W : Together h A B) {n : Int} (h0 : 0 ≤ n) (h1 : n < 2 ^ 62) {ns : List Int} (hn : ∀ n ∈ ns, 0 ≤ n) {s : VState T}
    (hs : Coherent h s.mpfss) (hd : s.sDone = false) {k : Nat} (hk : A.fuel * (ns.length + 1) ≤ k) :
    Safe (senderWants h n A.lower ++ senderMore h n k) (sends A (n :: ns) s) (fun _ _ _ => True) := by
  unfold sends
  refine Safe.bind (Q := fun _ s' rs' => ∃ t v b, SenderReady h t v b s' ∧
    ∃ k', A.fuel * ns.length ≤ k' ∧ rs' = more [.keys, .atLeast (h.optimal t).toNat] k') ?_ ?_
  · rw [runSender_eq, hd, if_neg (by simp)]
    refine Safe.bind (Q := fun _ s' rs' => rs' = senderMore h n k ∧ ∃ t v b, lastBuckets h n = (h.optimal t).toNat ∧ SenderReady h t v b s') ?_ ?_
    · exact precomputeSender_safe W h1 hs
    · rintro - s1 rs1 ⟨rfl, t, v, b, hb, H⟩
      unfold senderMore
      rw [hb]
      refine (senderRest_safe W (k0 := A.fuel * ns.length) h0 H (by rw [Nat.mul_succ] at hk; omega)).mono ?_
      rintro - s2 rs2 ⟨H2, k', hk', rfl⟩
      exact ⟨t, v, b, H2, k', hk', rfl⟩
  · rintro - s1 rs1 ⟨t, v, b, H, k', hk', rfl⟩
    refine Safe.bind (sends_safe W ns hn H hk') ?_
    intro _ _ _ _
    exact Safe.ret trivial

end VOLE
end DVO
