/-
Programs that wait for a peer that has already returned.
-/
import Verif.Spec.Errors
import Verif.Proofs.VOLE8
import Verif.Props.SPFSS
import Verif.Props.VOLE

namespace DVO.Net
variable {M α β γ δ : Type}

/-- The next thing the program does needs the peer. -/
def Waits : Proc M α → Prop
  | .recv .. => True
  | .otSend .. => True
  | .otRecv .. => True
  | _ => False

theorem Waits.bind {p : Proc M α} (h : Waits p) (f : α → Proc M β) : Waits (p.bind f) := by
  cases p <;> first | exact h | trivial

/-- The second party waits for a message or an OT. -/
def Blocked (s : Net M α β) : Prop :=
  match s.q with
  | .recv ch _ => s.pq ch = []
  | .otSend .. => True
  | .otRecv .. => True
  | _ => False

theorem Blocked.no_step {s : Net M α β} {a : α} (hp : s.p = .ret a) (hq : Blocked s) : ∀ t, ¬ Step s t := by
  intro t h
  unfold Blocked at hq
  cases h <;> simp_all

theorem hangs_of {p : Proc M α} {q : Proc M β} {n : Nat} {st : Net M α β} {a : α} (h : Steps n (init p q) st)
    (hp : st.p = .ret a) (hq : Blocked st) : Hangs p q a := by
  have hno := hq.no_step hp
  refine ⟨n, ?_⟩
  intro k s hs
  obtain ⟨h1, h2⟩ := normal_form hno h hs
  refine ⟨h1, ?_, ?_⟩
  · intro b hb
    have := steps_ret_right' h2 hb
    unfold Blocked at hq
    rw [this] at hq
    exact hq
  · intro hstop
    generalize hm : n - k = m at h2
    cases h2 with
    | zero => exact hp
    | succ h3 _ => exact absurd h3 (hstop _)

/-- The first party returns at once. -/
theorem Hangs.ret {q : Proc M β} (h : Waits q) (a : α) : Hangs (.ret a) q a := by
  refine hangs_of (.zero _) rfl ?_
  unfold Waits at h
  unfold Blocked init
  cases q <;> simp_all

/-- The first party returns at once, the second sends a message before it waits. -/
theorem Hangs.retSend {ch : Nat} {m : M} {q : Proc M β} (h : Waits q) (a : α) : Hangs (.ret a) (.send ch m q) a := by
  refine hangs_of (n := 1) (Steps.succ (.qSend ..) (.zero _)) rfl ?_
  unfold Waits at h
  unfold Blocked
  cases q <;> simp_all

/-- The first party returns after receiving one message. -/
theorem Hangs.recvSend {ch : Nat} {m : M} {k : M → Proc M α} {q : Proc M β} {a : α} (hk : k m = .ret a) (h : Waits q) :
    Hangs (.recv ch k) (.send ch m q) a := by
  refine hangs_of (n := 2) (Steps.succ (.qSend ..) (Steps.succ (.pRecv ch m [] _ _ _ _ _ _ (by simp)) (.zero _))) hk ?_
  unfold Waits at h
  unfold Blocked
  cases q <;> simp_all

/-- The first party returns after sending one message. -/
theorem Hangs.sendRecv {ch : Nat} {m : M} {k : M → Proc M β} {a : α} (h : Waits (k m)) :
    Hangs (.send ch m (.ret a)) (.recv ch k) a := by
  refine hangs_of (n := 2) (Steps.succ (.pSend ..) (Steps.succ (.qRecv ch m [] _ _ _ _ _ _ (by simp)) (.zero _))) rfl ?_
  unfold Waits at h
  unfold Blocked
  dsimp only
  cases hq : k m <;> simp_all

/-- `Hangs` is not compatible with both parties returning. -/
theorem Hangs.not_computes {p : Proc M α} {q : Proc M β} {a : α} (h : Hangs p q a) :
    ¬ ∃ a b va vb, Computes p q a b va vb := by
  rintro ⟨a', b, va, vb, hc⟩
  obtain ⟨k, hk⟩ := hc.joint
  obtain ⟨n, hn⟩ := h
  exact (hn k _ hk).2.1 b rfl

end DVO.Net

namespace DVO.ROT
open GGM Net
set_option linter.unusedSectionVars false
variable {T : Type} [Scalar T]

theorem receiver_waits (aes : Cipher) {fl : Nat → Nat → Nat} (c : Chans) {Ro : List (List T)} {ms : List Nat}
    (hidx : IdxOk (Ro.map List.length) ms) (hg : ∀ n ∈ Ro.map List.length, GoodSize fl n) :
    Waits (runReceiverBatched aes fl c (ms.map (fun m : Nat => (m : Int))) Ro : PM (Msg T) _) := by
  have hl1 : Ro.length = ms.length := by simpa using hidx.1
  have hc : ¬ (List.map List.length Ro).length ≠ (List.map (fun m : Nat => (m : Int)) ms).length := by simp [hl1]
  unfold runReceiverBatched receiveTrees
  rw [if_neg (by simp [hl1]), indicesOk_of hidx]
  simp only [Bool.not_true, Bool.false_eq_true, if_false]
  rw [if_neg hc, allChoices_eq _ _ _ hidx.1 hg]
  simp only [PM.lift_ok_bind]
  split
  · trivial
  · trivial

theorem sender_rejects (aes : Cipher) (fl : Nat → Nat → Nat) (c : Chans) {sec : Sec} (key seed : Nat → Block) {So : List (List T)}
    (hsec : Scalar.canHash T (secPerLeaf sec (accumulateInt (So.map List.length))) 128 = false) :
    (runSenderBatched aes fl c sec key seed So : PM (Msg T) _) =
      Proc.ret (.err .invalidArgument "Cannot ensure statistical security with the given modulus") := by
  unfold runSenderBatched sendTrees
  rw [hsec]
  rfl

theorem msgRows_length (aes : Cipher) (fl : Nat → Nat → Nat) (keys : List Block) (seed : Nat → Block) (ns : List Nat) :
    (msgRows aes fl keys seed ns).flatten.length = (ns.map (kOf fl)).sum := by
  rw [List.length_flatten]
  congr 1
  apply List.ext_getElem?
  intro i
  simp only [msgRows, List.getElem?_map, List.getElem?_mapIdx, Option.map_map]
  cases ns[i]? with
  | none => rfl
  | some n =>
    simp only [Option.map_some, Function.comp, kOf]
    split <;> simp [msgsOf]

theorem sender_waits (aes : Cipher) {fl : Nat → Nat → Nat} (c : Chans) {sec : Sec} (key seed : Nat → Block) {So : List (List T)}
    (hg : ∀ n ∈ So.map List.length, GoodSize fl n)
    (hsec : Scalar.canHash T (secPerLeaf sec (accumulateInt (So.map List.length))) 128 = true)
    (hbig : ∃ o ∈ So, 2 ≤ o.length) :
    Waits (runSenderBatched aes fl c sec key seed So : PM (Msg T) _) := by
  obtain ⟨o, ho, h2⟩ := hbig
  have hpos : 0 < ((So.map List.length).map (kOf fl)).sum := by
    refine Nat.lt_of_lt_of_le ?_ (MPFSS.le_sum_of_mem (x := kOf fl o.length) (List.mem_map.2 ⟨_, List.mem_map.2 ⟨o, ho, rfl⟩, rfl⟩))
    unfold kOf
    rw [if_neg (by omega)]
    have hc := (hg _ (List.mem_map.2 ⟨o, ho, rfl⟩)).cover (by omega)
    by_contra hz
    rw [show fl o.length 2 = 0 by omega] at hc
    omega
  unfold runSenderBatched sendTrees
  rw [hsec]
  simp only [Bool.not_true, Bool.false_eq_true, if_false]
  rw [show (List.range 2).map key = keys2 key from rfl, collectOT_eq aes (keys2_length key) _ seed hg]
  simp only [PM.lift_ok_bind]
  rw [if_pos (by rw [msgRows_length]; exact hpos)]
  trivial

/-- All outputs have at most one element: the sender makes no OT, sends the keys and is done. -/
theorem sender_small (aes : Cipher) {fl : Nat → Nat → Nat} (c : Chans) {sec : Sec} (key seed : Nat → Block) {So : List (List T)}
    (hg : ∀ n ∈ So.map List.length, GoodSize fl n) (h0 : ∀ o ∈ So, fl o.length 2 = 0)
    (hsec : Scalar.canHash T (secPerLeaf sec (accumulateInt (So.map List.length))) 128 = true) :
    (runSenderBatched aes fl c sec key seed So : PM (Msg T) _) =
      Proc.send c.rot (.blocks (keys2 key)) (.ret (.ok (senderOut T aes fl key seed (So.map List.length)))) := by
  have hsu := senderUnpack (T := T) aes key seed (So := So) hg
  have hz : ((So.map List.length).map (kOf fl)).sum = 0 := by
    rw [List.sum_eq_zero_iff]
    intro x hx
    obtain ⟨n, hn, rfl⟩ := List.mem_map.1 hx
    obtain ⟨o, ho, rfl⟩ := List.mem_map.1 hn
    unfold kOf
    split
    · rfl
    · exact h0 o ho
  unfold runSenderBatched sendTrees
  rw [hsec]
  simp only [Bool.not_true, Bool.false_eq_true, if_false]
  rw [show (List.range 2).map key = keys2 key from rfl, collectOT_eq aes (keys2_length key) _ seed hg]
  simp only [PM.lift_ok_bind]
  rw [if_neg (by rw [msgRows_length, hz]; omega)]
  show Proc.send c.rot _ (PM.lift (unpackAll _ _) : PM (Msg T) _) = _
  rw [hsu]
  rfl

end DVO.ROT

namespace DVO.SPFSS
open ROT GGM Net
variable {T : Type} [Scalar T]

theorem index_waits (aes : Cipher) {fl : Nat → Nat → Nat} (c : Chans) {b : List T} {O1 : List (List T)} {ms : List Nat}
    (hidx : IdxOk (O1.map List.length) ms) (hg : ∀ n ∈ O1.map List.length, GoodSize fl n) (hb : b.length = O1.length) :
    Waits (runIndexProviderBatched aes fl c b (ms.map (fun m : Nat => (m : Int))) O1 : PM (Msg T) _) := by
  have hl1 : O1.length = ms.length := by simpa using hidx.1
  unfold runIndexProviderBatched
  rw [if_neg (by simp; omega)]
  exact (receiver_waits aes c hidx hg).bind _

theorem value_waits (aes : Cipher) {fl : Nat → Nat → Nat} (c : Chans) {sec : Sec} (key seed : Nat → Block) {a : List T} {O0 : List (List T)}
    (hg : ∀ n ∈ O0.map List.length, GoodSize fl n)
    (hsec : Scalar.canHash T (secPerLeaf sec (accumulateInt (O0.map List.length))) 128 = true)
    (hbig : ∃ o ∈ O0, 2 ≤ o.length) (ha : a.length = O0.length) :
    Waits (runValueProviderBatched aes fl c sec key seed a O0 : PM (Msg T) _) := by
  unfold runValueProviderBatched
  rw [if_neg (by omega)]
  exact (sender_waits aes c key seed hg hsec hbig).bind _

theorem value_rejects (aes : Cipher) (fl : Nat → Nat → Nat) (c : Chans) {sec : Sec} (key seed : Nat → Block) {a : List T} {O0 : List (List T)}
    (ha : a.length = O0.length)
    (hsec : Scalar.canHash T (secPerLeaf sec (accumulateInt (O0.map List.length))) 128 = false) :
    (runValueProviderBatched aes fl c sec key seed a O0 : PM (Msg T) _) =
      Proc.ret (.err .invalidArgument "Cannot ensure statistical security with the given modulus") := by
  unfold runValueProviderBatched
  rw [if_neg (by omega), sender_rejects aes fl c key seed hsec]
  rfl

end DVO.SPFSS

namespace DVO.MPFSS
open ROT Net Cuckoo
set_option linter.unusedSectionVars false
variable {T : Type} [Scalar T] {h : Hasher}

/-- The program of the index provider once the indices have been hashed. -/
theorem index_program {aes : Cipher} {fl : Nat → Nat → Nat} {c : Chans} {t m : Nat} (hs : Sized h fl t m)
    {thr : Nat → List Nat} (ht : Threads thr) {st : State} (hI : Coherent h st) {y u v out : List T} {indices hashed : List Int}
    (hy : y.length = t) (hi : indices.length = t) (hr : ∀ i ∈ indices, i ≤ m) (ho : out.length = m) (hu : (u.length : Int) = h.optimal t)
    (hok : hashCuckoo h (indices.map indexBlock) (h.optimal t) = .ok hashed) :
    runIndexProviderVectorOLE aes fl c thr st y indices u v out = .send c.main (.elems (yMsg y u hashed))
      (Proc.bind (SPFSS.runIndexProviderBatched aes fl c v ((poss h t m indices hashed).map (fun m : Nat => (m : Int)))
        ((table h t m).map (fun b => List.replicate b.length 0)))
        (fun r => .ret (finish ⟨h, table h t m, some m, some t⟩ m r))) ∧
      ((yMsg y u hashed).length : Int) = h.optimal t := by
  have hpos := hs.pos
  have hle := hs.le
  have hb1 := hs.buckets_pos
  have hb2 := hs.buckets_lt
  have hnum := hs.numHash
  have hsz := hs.size
  have hm : m < 2 ^ 31 := by rcases hnum with e | e <;> rw [e] at hsz <;> omega
  have ht31 : t < 2 ^ 31 := by omega
  have hTl : (table h t m).length < 2 ^ 31 := by rw [table_length]; omega
  have hTi : toInt32 (table h t m).length = h.optimal t := by rw [toInt32_eq hTl, table_length]; omega
  obtain ⟨-, H⟩ := hashed_placed hs hi hok
  unfold runIndexProviderVectorOLE
  rw [if_neg (by omega), if_neg (by omega), if_neg (by omega), if_neg (by
    rw [List.any_eq_true]
    rintro ⟨i, hi1, hi2⟩
    have := hr i (List.mem_of_mem_take hi1)
    simp only [decide_eq_true_eq] at hi2
    omega), ho, hy, toInt32_eq ht31, updateBuckets_ok ht hI (computeBuckets_eq hs ht)]
  have hmy : maskedY ⟨h, table h t m, some m, some t⟩ y indices u = .ok (hashed, yMsg y u hashed) := by
    unfold maskedY
    dsimp only
    rw [hTi]
    have e1 : hashIndices h indices (h.optimal t) = .ok hashed := by
      unfold hashIndices
      rw [hok]
    have e2 := permuteY_eq (y := y) (hashed := hashed) (by rw [hy]; exact H.range)
    rw [show ((hashed.length : Nat) : Int) = h.optimal t by rw [H.len]; omega] at e2
    rw [e1, Out.ok_bind, e2, Out.ok_bind]
    unfold addMask
    rw [if_neg (by simp [H.len]; omega)]
    rfl
  dsimp only
  rw [hmy]
  dsimp only
  have hiib := indexInBucket_eq (B := table h t m) (indices := indices) (hashed := hashed) (by rw [table_length, H.len]) (by rw [hi]; exact H.range)
  rw [show ((hashed.length : Nat) : Int) = toInt32 (table h t m).length by rw [H.len, hTi]; omega] at hiib
  rw [hiib]
  dsimp only
  rw [emptyOutputs_eq hTl]
  refine ⟨rfl, ?_⟩
  simp [yMsg, H.len]
  omega

/-- The program of the value provider. -/
theorem value_program {aes : Cipher} {fl : Nat → Nat → Nat} {c : Chans} {sec : Sec} {key seed : Nat → Block} {t m : Nat} (hs : Sized h fl t m)
    {thr : Nat → List Nat} (ht : Threads thr) {st : State} (hV : Coherent h st) {x : T} {w out : List T}
    (ho : out.length = m) (hw : (w.length : Int) = h.optimal t) :
    ∃ k, runValueProviderVectorOLE aes fl c sec key seed thr st x t w out = .recv c.main k ∧
      ∀ msg : List T, (msg.length : Int) = h.optimal t → k (.elems msg) =
        Proc.bind (SPFSS.runValueProviderBatched aes fl c sec key seed (shares x msg w) ((table h t m).map (fun b => List.replicate b.length 0)))
          (fun r => .ret (finish ⟨h, table h t m, some m, some t⟩ m r)) := by
  have hpos := hs.pos
  have hb1 := hs.buckets_pos
  have hb2 := hs.buckets_lt
  have hTl : (table h t m).length < 2 ^ 31 := by rw [table_length]; omega
  unfold runValueProviderVectorOLE
  rw [if_neg (by omega), ho, updateBuckets_ok ht hV (computeBuckets_eq hs ht)]
  refine ⟨_, rfl, ?_⟩
  intro msg hmsg
  have hshare : (PM.unElems (.elems msg) >>= fun yMasked => valueShares x yMasked w) = .ok (shares x msg w) := by
    unfold PM.unElems valueShares
    rw [Out.ok_bind, if_neg (by omega)]
    rfl
  rw [hshare]
  dsimp only
  rw [emptyOutputs_eq hTl]

theorem table_good {fl : Nat → Nat → Nat} {t m : Nat} (hs : Sized h fl t m) :
    ∀ n ∈ ((table h t m).map (fun b => List.replicate b.length (0 : T))).map List.length, GoodSize fl n := by
  intro n hn
  rw [List.map_map] at hn
  refine hs.trees n ?_
  rw [← table_total (m := m) hs.buckets_pos]
  refine le_sum_of_mem ?_
  simpa [Function.comp_def] using hn

end DVO.MPFSS

namespace DVO.VOLE
open Net MPFSS
set_option linter.unusedSectionVars false
variable {T : Type} [Scalar T] {h : Cuckoo.Hasher} {A B : Env T}

/-- Sampling indices works, but hashing them never does. -/
def Unlucky (h : Cuckoo.Hasher) (E : Env T) : Prop :=
  ∀ (junk : RNG.Gen) (seed : List (BitVec 8)) (t o : Nat) (g : RNG.Gen), (t : Int) ∈ noiseSizes → t ≤ o →
    RNG.create junk seed t = .ok g → ∃ l, sampleIndices E.lib E.aes o t E.fuel g [] = .ok l ∧
      ∀ l' : List Int, l'.Perm l → ¬ ∃ hashed, Cuckoo.hashCuckoo h (l'.map MPFSS.indexBlock) (h.optimal t) = .ok hashed

/-- Sampling `t` of `o` indices with the random numbers number `k` works, but hashing them does not. -/
def UnluckyAt (h : Cuckoo.Hasher) (E : Env T) (k t o : Nat) : Prop :=
  ∀ g, RNG.create (E.rand k).junk ((List.range 32).map (E.rand k).byte) t = .ok g → ∃ l, sampleIndices E.lib E.aes o t E.fuel g [] = .ok l ∧
    ¬ ∃ hashed, Cuckoo.hashCuckoo h (((E.rand k).order l).map MPFSS.indexBlock) (h.optimal t) = .ok hashed

theorem Unlucky.at (W : Together h A B) (hun : Unlucky h A) {k t o : Nat} (ht : (t : Int) ∈ noiseSizes) (hle : t ≤ o) : UnluckyAt h A k t o := by
  intro g hg
  obtain ⟨l, h1, h2⟩ := hun _ _ t o g ht hle hg
  exact ⟨l, h1, h2 _ (W.orderA k l)⟩

theorem expandSender_fails (W : Together h A B) (hbits : ∀ t : Nat, (t : Int) ∈ noiseSizes → ∀ m ≤ 10616092, h.tooManyBits m (h.optimal t).toNat = false)
    {t o : Nat} {nv nm : Int} {s : VState T} (hun : UnluckyAt h A s.pos t o)
    (ht : (t : Int) ∈ noiseSizes) (hle : t ≤ o) (ho : o ≤ 10616092) (hs : Coherent h s.mpfss)
    (hns : s.noise = t) (hco : CodeOk s.code s.sVole.u.length o) (huv : s.sVole.v.length = s.sVole.u.length) :
    ∃ c m s', expandSender A o nv nm s = .ret (.err c m, s') := by
  have hpos := noise_pos ht
  have hle' := noise_le ht
  unfold expandSender
  rw [VM.get_bind, if_neg (by omega), if_neg (by
      have h1 := hco.rows_; have h2 := hco.cols_; rw [h1, h2]; simp)]
  rw [VM.draw_bind]
  obtain ⟨g, hg, eg⟩ := create_usable (A.rand s.pos).junk ((List.range 32).map (A.rand s.pos).byte) (b := s.noise) (by simp)
    (by rw [hns]; omega)
  rw [eg, VM.lift_ok_bind, if_neg (by omega)]
  have hbound := sampleIndices_fine (lib := A.lib) (aes := A.aes) W.conforms (o := (o : Int)) (n := s.noise) (by omega) (by omega) A.fuel
    (set := []) hg List.nodup_nil (by simp) (by simp; omega)
  rw [hns] at eg
  obtain ⟨set, eset, hno⟩ := hun g eg
  rw [hns, eset] at hbound
  obtain ⟨hnd, hrange, hlen⟩ := hbound
  rw [hns, eset, VM.lift_ok_bind]
  have hperm := W.orderA s.pos set
  generalize hidx : (A.rand s.pos).order set = indices at hperm hno ⊢
  have hli : indices.length = t := by rw [hperm.length_eq]; omega
  have hr' : ∀ i ∈ indices, i ≤ (o : Int) := fun i hi => le_of_lt (hrange i (hperm.mem_iff.1 hi)).2
  rw [VM.draw_bind, vecOf_eq, VM.lift_ok_bind, VM.draw_bind, vecOf_eq, VM.lift_ok_bind]
  have hsz := W.sized ht hle ho (hbits t ht o ho)
  rcases hashIndices_cases W ht hli with ⟨hashed, hok⟩ | ⟨cd, msg, he, hx⟩
  · exact absurd ⟨hashed, hok⟩ hno
  · rw [VM.bind_apply, runMpfss_eq]
    obtain ⟨rs, e1, e2, -, -⟩ := index_fails (aes := A.aes) (c := A.c) (u := s.sMpfss.u) (v := s.sMpfss.v)
      (y := (List.range t).map (A.rand (s.pos + 1)).elems) (out := (List.range o).map (A.rand (s.pos + 1 + 1)).elems)
      hsz W.threadsA hs (by simp) hli hr' (by simp) hno
    rw [he] at e2
    dsimp only
    rw [e1]
    show ∃ c m s', Proc.bind (afterMpfss _ rs) _ = _
    rw [afterMpfss_err _ e2]
    exact ⟨_, _, _, rfl⟩

theorem expandReceiver_waits (W : Together h A B) (hbits : ∀ t : Nat, (t : Int) ∈ noiseSizes → ∀ m ≤ 10616092, h.tooManyBits m (h.optimal t).toNat = false)
    {t o : Nat} {nv nm : Int} {r : VState T}
    (ht : (t : Int) ∈ noiseSizes) (hle : t ≤ o) (ho : o ≤ 10616092) (hr : Coherent h r.mpfss)
    (hnr : r.noise = t) (hco : CodeOk r.code r.rVole.w.length o) (hw : (r.rMpfss.w.length : Int) = h.optimal t) :
    Waits (expandReceiver B o nv nm r) := by
  unfold expandReceiver
  rw [VM.get_bind, if_neg (by
      have h1 := hco.rows_; have h2 := hco.cols_; rw [h1, h2]; simp)]
  rw [VM.draw_bind, vecOf_eq, VM.lift_ok_bind, VM.modify_bind, VM.draw_bind, vecOf_eq, VM.lift_ok_bind, hnr, VM.bind_apply, runMpfss_eq]
  have hsz := W.sized ht hle ho (hbits t ht o ho)
  obtain ⟨k, e, -⟩ := value_program (aes := B.aes) (c := B.c) (sec := B.sec.map (· * 2)) (key := (B.rand (r.pos + 1)).key) (seed := (B.rand (r.pos + 1)).seed)
    (x := r.rMpfss.delta) (w := r.rMpfss.w) (out := (List.range o).map (B.rand (r.pos + 1)).elems) hsz W.threadsB hr (by simp) hw
  rw [W.fl]
  dsimp only at e ⊢
  rw [e]
  trivial

/-- A run after a precomputation: the sender fails at its first expansion, the receiver waits. -/
theorem run_unluckyAt [LawfulScalar T] (W : Together h A B)
    (hbits : ∀ t : Nat, (t : Int) ∈ noiseSizes → ∀ m ≤ 10616092, h.tooManyBits m (h.optimal t).toNat = false)
    {d : T} {batch : Int} {s r : VState T} (F : Fresh h d batch s r) {n : Nat} (hn : 1 ≤ n) (hfA : 1 ≤ A.fuel) (hfB : 1 ≤ B.fuel)
    (hun : ∀ t o : Nat, s.noise = t → (o : Int) = s.batch + s.voleSize + s.mpfssSize → UnluckyAt h A (s.pos + 1 + 1) t o) :
    (∃ c m s', runSender A n s = .ret (.err c m, s')) ∧ Waits (runReceiver B n r) := by
  obtain ⟨t, v, b, R1, R2, hv, hm, -⟩ := F.ready
  obtain ⟨i, hi⟩ := R1.row
  obtain ⟨b1, b2, b3⟩ := hi.bounds
  have hp := W.optimal_pos hi.mem
  have hl := R1.le
  have hvv := F.vole.corr.len_v
  have hvw := F.vole.corr.len_w
  have hmw := F.mpfss.corr.len_w
  have hcw := F.cached.corr.len_w
  have hcv := F.cached.corr.len_v
  have he := F.empty
  obtain ⟨m, hm'⟩ : ∃ m : Nat, (m : Int) = h.optimal t := ⟨(h.optimal t).toNat, by omega⟩
  have hm2 : (h.optimal t).toNat = m := by omega
  obtain ⟨f, hf⟩ : ∃ f, A.fuel = f + 1 := ⟨A.fuel - 1, by omega⟩
  obtain ⟨f', hf'⟩ : ∃ f, B.fuel = f + 1 := ⟨B.fuel - 1, by omega⟩
  have hsum : ∀ x y z : Int, x = (b : Nat) → y = (v : Nat) → z = h.optimal t → x + y + z = ((b + v + m : Nat) : Int) := by
    intro x y z e1 e2 e3; rw [e1, e2, e3, ← hm']; push_cast; rfl
  have e1 : getSender s.sCached (n : Int) = .err .outOfRange "Requested cached sender elements" := by
    unfold getSender; rw [if_pos (by omega)]
  have e2 : getReceiver r.rCached (n : Int) = .err .outOfRange "Requested cached receiver elements" := by
    unfold getReceiver; rw [if_pos (by omega)]
  constructor
  · rw [runSender_eq, if_pos F.doneS]
    unfold senderRest
    rw [VM.get_bind, e1]
    dsimp only
    rw [VM.draw_bind, vecOf_eq, VM.lift_ok_bind, VM.draw_bind, vecOf_eq, VM.lift_ok_bind, hf]
    unfold runSenderLoop
    rw [if_pos (by omega), VM.get_bind]
    dsimp only
    rw [if_pos (by omega), VM.bind_assoc, setSeg_eq (by simp; omega), VM.lift_ok_bind, VM.bind_assoc, setSeg_eq (by simp; omega),
      VM.lift_ok_bind, VM.bind_assoc, VM.modify_bind, VM.pure_bind']
    dsimp only
    rw [if_pos (by omega), VM.get_bind]
    dsimp only
    rw [hsum s.batch s.voleSize s.mpfssSize R1.batch R1.vole R1.mpfss, VM.bind_apply]
    obtain ⟨c', m', s', e⟩ := expandSender_fails W hbits (o := b + v + m) (nv := s.voleSize) (nm := s.mpfssSize)
      (s := { s with pos := s.pos + 1 + 1, sCached := ⟨[], [], []⟩ }) (hun t _ R1.noise (hsum _ _ _ R1.batch R1.vole R1.mpfss).symm) hi.mem (by omega) (by omega) F.cohS R1.noise
      (by dsimp only; rw [hv, ← hm2]; exact R1.code) hvv
    rw [e]
    exact ⟨_, _, _, rfl⟩
  · rw [runReceiver_eq, if_pos F.doneR]
    unfold receiverRest
    rw [VM.get_bind, e2]
    dsimp only
    rw [VM.draw_bind, vecOf_eq, VM.lift_ok_bind, hf']
    unfold runReceiverLoop
    rw [if_pos (by omega), VM.get_bind]
    dsimp only
    rw [if_pos (by omega), VM.bind_assoc, setSeg_eq (by simp; omega), VM.lift_ok_bind, VM.bind_assoc, VM.modify_bind, VM.pure_bind']
    dsimp only
    rw [if_pos (by omega), VM.get_bind]
    dsimp only
    rw [hsum r.batch r.voleSize r.mpfssSize R2.batch R2.vole R2.mpfss, VM.bind_apply]
    exact (expandReceiver_waits W hbits (o := b + v + m) (nv := r.voleSize) (nm := r.mpfssSize)
      (r := { r with pos := r.pos + 1, rCached := { r.rCached with w := [], ids := [] } }) hi.mem (by omega) (by omega) F.cohR R2.noise
      (by dsimp only; rw [F.code, hvw, hv, ← hm2]; exact R1.code) (by dsimp only; omega)).bind _

theorem run_unlucky [LawfulScalar T] (W : Together h A B) (hun : Unlucky h A)
    (hbits : ∀ t : Nat, (t : Int) ∈ noiseSizes → ∀ m ≤ 10616092, h.tooManyBits m (h.optimal t).toNat = false)
    {d : T} {batch : Int} {s r : VState T} (F : Fresh h d batch s r) {n : Nat} (hn : 1 ≤ n) (hfA : 1 ≤ A.fuel) (hfB : 1 ≤ B.fuel) :
    (∃ c m s', runSender A n s = .ret (.err c m, s')) ∧ Waits (runReceiver B n r) := by
  refine run_unluckyAt W hbits F hn hfA hfB fun t o h1 h2 => ?_
  obtain ⟨t', v, b, R1, -⟩ := F.ready
  obtain ⟨i, hi⟩ := R1.row
  obtain ⟨b1, b2, b3⟩ := hi.bounds
  have hp := W.optimal_pos hi.mem
  have e := R1.noise
  have e2 := R1.batch
  have e3 := R1.vole
  have e4 := R1.mpfss
  obtain rfl : t = t' := by omega
  exact hun.at W hi.mem (by omega)

/-! ### An environment without luck -/

/-- A hasher that puts everything into the same bucket. -/
def oneBucket : Cuckoo.Hasher := ⟨fun x => x, 3, fun _ _ => false, fun _ => 2000⟩

theorem oneBucket_const (N : Nat) (x : Block) (i : Nat) : Cuckoo.bucketOf oneBucket.enc N x i = 0 := by
  have h1 : ∀ y : Block, oneBucket.enc y ^^^ y = 0 := fun y => BitVec.xor_self
  unfold Cuckoo.bucketOf Cuckoo.digest
  dsimp only
  split <;> rw [h1] <;> simp

/-- It fails for two or more inputs. -/
theorem oneBucket_fails {inputs : List Block} {N : Int} (h0 : 0 < N) (h1 : N < 2 ^ 63) (h2 : 2 ≤ inputs.length) :
    ¬ ∃ hashed, Cuckoo.hashCuckoo oneBucket inputs N = .ok hashed := by
  rintro ⟨hashed, hok⟩
  by_cases hl : (inputs.length : Int) ≤ N
  swap
  · unfold Cuckoo.hashCuckoo at hok
    rw [if_neg (by show ¬ 3 = 1; omega), if_neg (by omega), if_pos (by omega)] at hok
    cases hok
  rcases Cuckoo.hashCuckoo_spec oneBucket (by show 2 ≤ 3; omega) h0 h1 inputs hl rfl with hi | ⟨bk, hbk, hp, hc⟩
  · rw [hok] at hi
    cases hi
  · have key : ∀ k : Nat, k < inputs.length → bk[0]? = some (k : Int) := by
      intro k hk
      have hmem : (k : Int) ∈ bk := by
        rw [← List.count_pos_iff, hc k, if_pos hk]; omega
      obtain ⟨b, hb⟩ := List.mem_iff_getElem?.1 hmem
      rcases hp.own b k hb with he | ⟨i, row, -, hrow, hbr⟩
      · omega
      · rw [List.getElem?_map, Option.map_eq_some_iff] at hrow
        obtain ⟨x, -, rfl⟩ := hrow
        obtain ⟨j, -, hj⟩ := List.mem_map.1 hbr
        rw [oneBucket_const] at hj
        rw [hj]; exact hb
    have e0 := key 0 (by omega)
    have e1 := key 1 (by omega)
    rw [e0] at e1
    simp at e1

theorem oneBucket_together (x y fx fy : Nat) : Together oneBucket (toyEnv true x fx) (toyEnv false y fy) where
  aes := rfl
  fl := rfl
  chans := rfl
  sec := rfl
  lib := rfl
  ids := rfl
  threadsA := (toy_together x y fx fy).threadsA
  threadsB := (toy_together x y fx fy).threadsB
  orderA := (toy_together x y fx fy).orderA
  orderB := (toy_together x y fx fy).orderB
  conforms := toyLib_conforms _
  numHash := rfl
  buckets_pos := fun n _ => by show (0 : Int) < 2000; omega
  buckets_lt := fun n _ => by show (2000 : Int) < _; omega
  trees := (toy_together x y fx fy).trees

theorem oneBucket_unlucky (b : Bool) (x f : Nat) (hf : 1325 ≤ f) : Unlucky oneBucket (toyEnv b x f) := by
  intro junk seed t o g ht hle hg
  have h1 := noise_le ht
  have h2 : 2 ≤ t := by simp [noiseSizes] at ht; omega
  refine ⟨_, toy_sampleIndices (t := t) toyAes hle f 0 g (by omega) (by omega) (Budget.create hg (by omega)).2, fun l' hl => ?_⟩
  exact oneBucket_fails (by show (0 : Int) < 2000; omega) (by show (2000 : Int) < _; omega) (by rw [List.length_map, hl.length_eq]; simp; omega)

/-- Everything but expansions works. -/
theorem oneBucket_smooth (b : Bool) (x f : Nat) : SmoothTo 10616092 0 oneBucket (toyEnv b x f) where
  bits := fun _ _ _ _ => rfl
  trees := fun _ _ => rfl
  elements := fun _ _ => rfl
  sampling := fun junk seed rows cols g h1 h2 h3 => toy_sampleCode _ junk seed rows cols g h1 h2 h3
  indices := fun junk seed t o g ht hle ho hg => by
    have h2 : 2 ≤ t := by simp [noiseSizes] at ht; omega
    omega

/-- A small precomputation involves no expansion. -/
theorem oneBucket_enough (M N : Nat) : Enough oneBucket 5 M N := by
  intro i t v t' v' o h1 h2 h3 h4
  exfalso
  have h5 := h2.lt
  have hi := h1.lt
  have hopt : oneBucket.optimal t = 2000 := rfl
  rw [hopt] at h4
  have e1 := h1.seed
  match i, hi with
  | 0, _ => simp [outputSizes, seedSizes] at h3 e1; omega
  | 1, _ => simp [outputSizes, seedSizes] at h3 e1; omega
  | 2, _ => simp [outputSizes, seedSizes] at h3 e1; omega
  | 3, _ => simp [outputSizes, seedSizes] at h3 e1; omega
  | 4, _ => omega

theorem oneBucket_fresh (d : BitVec 64) {s r : VState (BitVec 64)} (hs : Coherent oneBucket s.mpfss) (hr : Coherent oneBucket r.mpfss)
    (hlog : s.log = r.log) (x y fx fy : Nat) :
    ∃ s' r' va vb, Computes (precomputeSender (toyEnv true x fx) 5 s) (precomputeReceiver (toyEnv false y fy) 5 d r)
      (.ok (), s') (.ok (), r') va vb ∧ Fresh oneBucket d 5 s' r' := by
  obtain ⟨⟨⟩, s', ⟨⟩, r', va, vb, h1, -, h2, -⟩ := (precompute_pair_to (P := fun _ => False) (M := 10616092) (N := 0)
    (fun o _ h => h ⟨oneBucket_smooth _ _ _, oneBucket_smooth _ _ _⟩) (oneBucket_together x y fx fy) (batch := 5) (by omega)
    (oneBucket_enough _ _) (by
      intro i t v H
      obtain ⟨b1, b2, b3⟩ := H.bounds
      rw [show oneBucket.optimal t = 2000 from rfl]
      push_cast; omega) (.inl (by omega)) (d := d) hs hr hlog).false
  exact ⟨s', r', va, vb, h1, h2⟩

end DVO.VOLE
