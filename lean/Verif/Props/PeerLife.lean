/-
C79 for a whole program: one party creates an object, precomputes and runs, in front of any peer.
-/
import Verif.Props.PeerRuns
import Verif.Props.Formulas

namespace DVO.Create
open VOLE Cuckoo
variable {T : Type} {α β : Type}

/-- As `VOLE.Safe`, without the state of an object. -/
def SafeP (rs : List Want) (p : PM (Msg T) α) (Q : α → List Want → Prop) : Prop :=
  ∀ l o, Reads (α := Out α) p l o → MeetsAll rs l → o.NoUB ∧ ∀ a, o = .ok a → Q a (rs.drop l.length)

variable {rs : List Want} {Q : α → List Want → Prop} {Q' : β → List Want → Prop}

theorem SafeP.lift {x : Out α} (h : x.NoUB) (hk : ∀ a, x = .ok a → Q a rs) : SafeP rs (PM.lift x : PM (Msg T) α) Q := by
  intro l o hr _
  obtain ⟨rfl, rfl⟩ := Reads.of_ret hr
  exact ⟨h, hk⟩

theorem SafeP.ret {a : α} (h : Q a rs) : SafeP rs (pure a : PM (Msg T) α) Q :=
  SafeP.lift (x := .ok a) trivial (fun b e => by cases e; exact h)

theorem SafeP.bind {x : PM (Msg T) α} {f : α → PM (Msg T) β} (h : SafeP rs x Q) (hk : ∀ a rs1, Q a rs1 → SafeP rs1 (f a) Q') :
    SafeP rs (x >>= f) Q' := by
  intro l o hr hl
  obtain ⟨l1, l2, o1, rfl, h1, h2⟩ := Reads.of_bind (M := Msg T) hr
  obtain ⟨h3, h4⟩ := h l1 o1 h1 hl.left
  cases o1 with
  | ok a =>
    have := hk a _ (h4 a rfl) l2 o h2 hl.right
    rwa [List.drop_drop, ← List.length_append] at this
  | ub w => exact h3.elim
  | _ =>
    obtain ⟨-, rfl⟩ := Reads.of_ret h2
    exact ⟨trivial, by intro a e; cases e⟩

theorem SafeP.send {ch : Nat} {m : Msg T} {Q : Unit → List Want → Prop} (h : Q () rs) : SafeP rs (PM.send ch m : PM (Msg T) Unit) Q := by
  intro l o hr _
  cases hr with
  | send _ _ _ _ _ hr =>
    obtain ⟨rfl, rfl⟩ := Reads.of_ret hr
    exact ⟨trivial, fun _ _ => h⟩

theorem SafeP.recv {ch : Nat} {w : Want} : SafeP (w :: rs) (PM.recv ch : PM (Msg T) (Msg T)) (fun m rs' => Meets w m ∧ rs' = rs) := by
  intro l o hr hl
  cases hr with
  | recv _ _ m l _ hr =>
    obtain ⟨rfl, rfl⟩ := Reads.of_ret hr
    exact ⟨trivial, fun a e => by cases e; exact ⟨hl 0 w m rfl rfl, rfl⟩⟩

theorem sync_safe (P : Party) (ch : Chans) : SafeP (T := T) (.token :: rs) (sync P ch) (fun _ rs' => rs' = rs) := by
  have h1 : ∀ m : Msg T, Meets .token m → (unToken m).NoUB := by
    intro m hm
    cases m <;> trivial
  unfold sync
  split
  · refine SafeP.bind (Q := fun _ rs' => rs' = .token :: rs) (SafeP.send rfl) ?_
    rintro - _ rfl
    refine SafeP.bind SafeP.recv ?_
    rintro m _ ⟨hm, rfl⟩
    exact SafeP.lift (h1 m hm) (fun _ _ => rfl)
  · refine SafeP.bind SafeP.recv ?_
    rintro m _ ⟨hm, rfl⟩
    refine SafeP.bind (Q := fun _ rs' => rs' = _) (SafeP.lift (h1 m hm) (fun _ _ => rfl)) ?_
    rintro - _ rfl
    exact SafeP.send rfl

theorem rotCreate_safe {P : Party} (hP : P.rotAdapter.NoUB) (ch : Chans) (sec : Sec) :
    SafeP (T := T) (.token :: rs) (rotCreate P (some ch) sec) (fun s rs' => s = sec ∧ rs' = rs) := by
  unfold rotCreate
  dsimp only
  split
  · exact SafeP.lift trivial (by intro a e; cases e)
  refine SafeP.bind (sync_safe P ch) ?_
  rintro - _ rfl
  refine SafeP.bind (Q := fun _ rs' => rs' = _) (SafeP.lift hP (fun _ _ => rfl)) ?_
  rintro - _ rfl
  exact SafeP.ret ⟨rfl, rfl⟩

theorem spfssCreate_safe {P : Party} (hP : P.rotAdapter.NoUB) (ch : Chans) (sec : Sec) :
    SafeP (T := T) (.token :: rs) (spfssCreate P (some ch) sec) (fun s rs' => s = sec ∧ rs' = rs) := by
  unfold spfssCreate
  dsimp only
  split
  · exact SafeP.lift trivial (by intro a e; cases e)
  exact rotCreate_safe hP ch sec

theorem gilboaCreate_safe {P : Party} (hP : P.gilboaAdapter.NoUB) (ch : Chans) (sec : Sec) :
    SafeP (T := T) (.token :: rs) (gilboaCreate P (some ch) sec) (fun s rs' => s = sec ∧ rs' = rs) := by
  unfold gilboaCreate
  dsimp only
  split
  · exact SafeP.lift trivial (by intro a e; cases e)
  refine SafeP.bind (sync_safe P ch) ?_
  rintro - _ rfl
  refine SafeP.bind (Q := fun _ rs' => rs' = _) (SafeP.lift hP (fun _ _ => rfl)) ?_
  rintro - _ rfl
  exact SafeP.ret ⟨rfl, rfl⟩

theorem hasherSeed_safe (P : Party) (ch : Chans) (seed : Block) :
    SafeP (T := T) ((if P.lower then [] else [.block]) ++ rs) (hasherSeed P ch seed) (fun _ rs' => rs' = rs) := by
  unfold hasherSeed
  by_cases e : P.lower
  · rw [if_pos e, if_pos e]
    refine SafeP.bind (Q := fun _ rs' => rs' = _) (SafeP.send rfl) ?_
    rintro - _ rfl
    exact SafeP.ret rfl
  · rw [if_neg e, if_neg e]
    refine SafeP.bind SafeP.recv ?_
    rintro m _ ⟨hm, rfl⟩
    refine SafeP.lift ?_ (fun _ _ => rfl)
    cases m with
    | blocks b =>
      obtain ⟨x, rfl⟩ := List.length_eq_one_iff.1 (show b.length = 1 from hm)
      trivial
    | closed => trivial
    | _ => exact hm.elim

theorem mpfssCreate_safe (aes : Cipher) (bits : Sec → Nat → Nat → Nat → Bool) (optimal : Sec → Nat → Nat → Int) {P : Party}
    (hP : P.rotAdapter.NoUB) (seed : Block) (ch : Chans) (sec : Sec) :
    SafeP (T := T) (.token :: .token :: ((if P.lower then [] else [.block]) ++ rs)) (mpfssCreate aes bits optimal P seed (some ch) sec)
      (fun o rs' => rs' = rs ∧ ∃ s, o = agreed aes bits optimal s sec) := by
  unfold mpfssCreate
  dsimp only
  by_cases hneg : negative sec = true
  · rw [if_pos hneg]
    exact SafeP.lift trivial (by intro a e; cases e)
  rw [if_neg hneg]
  refine SafeP.bind (sync_safe P ch) ?_
  rintro - _ rfl
  refine SafeP.bind (spfssCreate_safe hP ch _) ?_
  rintro _ _ ⟨rfl, rfl⟩
  refine SafeP.bind (hasherSeed_safe P ch seed) ?_
  rintro s _ rfl
  exact SafeP.ret ⟨rfl, s, rfl⟩

theorem voleCreate_safe (aes : Cipher) (bits : Sec → Nat → Nat → Nat → Bool) (optimal : Sec → Nat → Nat → Int) {P : Party}
    (hP : P.rotAdapter.NoUB) (hP' : P.gilboaAdapter.NoUB) (seed : Block) (ch : Chans) (sec : Sec) :
    SafeP (T := T) (createWants P.lower ++ rs) (voleCreate aes bits optimal P seed (some ch) sec)
      (fun o rs' => rs' = rs ∧ ∃ s, o.mpfss = agreed aes bits optimal s (sec.map (· * 3))) := by
  unfold voleCreate
  dsimp only
  split
  · exact SafeP.lift trivial (by intro a e; cases e)
  refine SafeP.bind (gilboaCreate_safe hP' ch _) ?_
  rintro _ _ ⟨rfl, rfl⟩
  refine SafeP.bind (mpfssCreate_safe aes bits optimal hP seed ch _) ?_
  rintro _ _ ⟨rfl, s, rfl⟩
  exact SafeP.ret ⟨rfl, s, rfl⟩

/-- C79: `DistributedVectorOLE::Create` is safe with any peer, with any arguments. -/
theorem C79_create (aes : Cipher) (bits : Sec → Nat → Nat → Nat → Bool) (optimal : Sec → Nat → Nat → Int) {P : Party}
    (hP : P.rotAdapter.NoUB) (hP' : P.gilboaAdapter.NoUB) (seed : Block) (ch : Option Chans) (sec : Sec) {l : List (Msg T)} {o : Out Vole}
    (hl : Reads (α := Out Vole) (voleCreate aes bits optimal P seed ch sec) l o) (hm : MeetsAll (createWants P.lower) l) : o.NoUB := by
  cases ch with
  | none => obtain ⟨-, rfl⟩ := Reads.of_ret hl; trivial
  | some ch => exact (voleCreate_safe (rs := []) aes bits optimal hP hP' seed ch sec l o hl (by simpa using hm)).1

/-! ### Whole programs -/

variable [Scalar T]

/-- A program that creates an object and then uses it. It stops at the first error. -/
def life (bits : Sec → Nat → Nat → Nat → Bool) (optimal : Sec → Nat → Nat → Int) (P : Party) (seed : Block) (sec : Sec) (E : Env T) (junk : T)
    (body : Env T → VM T α) : PM (Msg T) α := do
  let o ← voleCreate E.aes bits optimal P seed (some E.c) sec
  Proc.bind (body { E with sec := o.sec } (created o.mpfss.hasher junk)) (fun r => .ret r.1)

/-- One party on its end of a connection: working threads, hash sets and adapters, faithful arithmetic. -/
structure OneParty (P : Party) (A : Env T) : Prop where
  lower : P.lower = A.lower
  rot : P.rotAdapter.NoUB
  gilboa : P.gilboaAdapter.NoUB
  threads : MPFSS.Threads A.thr
  order : ∀ i l, List.Perm ((A.rand i).order l) l
  conforms : A.lib.Conforms A.aes
  depth : GGM.FaithfulDepth A.fl

/-- The hasher after `Create`, made from the seed `s`. -/
abbrev hasherOf (A : Env T) (bits : Sec → Nat → Nat → Nat → Bool) (optimal : Sec → Nat → Nat → Int) (f : ℚ) (s : Block) : Hasher :=
  (agreed A.aes bits optimal s ((some f : Sec).map (· * 3))).hasher

omit [Scalar T] in
theorem OneParty.alone {P : Party} {A : Env T} (W : OneParty P A) {bits : Sec → Nat → Nat → Nat → Bool} {optimal : Sec → Nat → Nat → Int}
    (H : Faithful optimal) {f : ℚ} (h1 : 1 ≤ f) (h2 : f ≤ 2 ^ 128) (s : Block) (sec : Sec) :
    Alone (hasherOf A bits optimal f s) { A with sec := sec } where
  threads := W.threads
  order := W.order
  conforms := W.conforms
  numHash := rfl
  buckets_pos := fun n hn => (common_buckets (bits := bits) H P s s A.aes h1 h2 n hn).1
  buckets_lt := fun n hn => lt_of_le_of_lt (common_buckets (bits := bits) H P s s A.aes h1 h2 n hn).2 (by omega)
  trees := fun n hn => GGM.C68_good W.depth (by omega)

omit [Scalar T] in
theorem life_safe {P : Party} {A : Env T} (W : OneParty P A) {bits : Sec → Nat → Nat → Nat → Bool} {optimal : Sec → Nat → Nat → Int}
    (seed : Block) (f : ℚ) (junk : T) {body : Env T → VM T α}
    (hk : ∀ s sec, Safe rs (body { A with sec := sec } (created (hasherOf A bits optimal f s) junk)) (fun _ _ _ => True)) :
    SafeP (createWants P.lower ++ rs) (life bits optimal P seed (some f) A junk body) (fun _ _ => True) := by
  refine SafeP.bind (voleCreate_safe A.aes bits optimal W.rot W.gilboa seed A.c (some f)) ?_
  rintro ⟨_, g, sec⟩ _ ⟨rfl, s, rfl⟩
  intro l o hr hl
  obtain ⟨l1, l2, ⟨o1, s1⟩, rfl, h1, h2⟩ := Reads.of_bind (M := Msg T) hr
  obtain ⟨rfl, rfl⟩ := h2.of_ret
  rw [List.append_nil] at hl ⊢
  exact ⟨(hk s sec l1 _ s1 h1 hl).1, fun _ _ => trivial⟩

/-- C79, a program that creates an object and uses it as a receiver: it precomputes and then asks for vectors of any sizes. Whatever
    the peer sends (in particular whatever seed of the hasher) and whatever the oblivious transfers return, there is no undefined
    behaviour. Partial: each vector received is supposed to have the length the receiver expects, which the code does not check;
    with any other length it is false (C79_vole_negation). What is wanted does not depend on the seed of the hasher, here 0. -/
theorem C79_life_receiver_partial [LawfulScalar T] {P : Party} {A : Env T} (W : OneParty P A) {bits : Sec → Nat → Nat → Nat → Bool}
    {optimal : Sec → Nat → Nat → Int} (H : Faithful optimal) (seed : Block) {f : ℚ} (h1 : 1 ≤ f) (h2 : f ≤ 2 ^ 128) (junk : T)
    {b : Int} (hb : b < 2 ^ 62) (d : T) {ns : List Int} (hn : ∀ n ∈ ns, 0 ≤ n) {l : List (Msg T)} {o : Out (List (RRes T))}
    (hl : Reads (α := Out (List (RRes T)))
      (life bits optimal P seed (some f) A junk (fun E => precomputeReceiver E b d >>= fun _ => receives E ns)) l o)
    (hm : ∀ k, MeetsAll (createWants P.lower ++ (receiverWants (hasherOf A bits optimal f 0) b A.lower ++
      receiverMore (hasherOf A bits optimal f 0) b k)) l) : o.NoUB := by
  refine (life_safe W seed f junk ?_ l o hl (hm (A.fuel * ns.length))).1
  intro s sec
  have W' := (W.alone (bits := bits) H h1 h2 s sec).together
  refine Safe.bind (precomputeReceiver_safe W' hb (MPFSS.Coherent.new _)) ?_
  rintro - r1 rs1 ⟨rfl, t, v, c, hc, R⟩
  show Safe (receiverMore (hasherOf A bits optimal f s) b _) _ _
  unfold receiverMore
  rw [hc]
  exact receives_safe W' ns hn R (Nat.le_refl _)

/-- The same for a sender. Partial: each vector received is supposed to have at least one element per bucket, which the code does
    not check (C79_mpfss_value_negation, C79_mpfss_index_negation). -/
theorem C79_life_sender_partial [LawfulScalar T] {P : Party} {A : Env T} (W : OneParty P A) {bits : Sec → Nat → Nat → Nat → Bool}
    {optimal : Sec → Nat → Nat → Int} (H : Faithful optimal) (seed : Block) {f : ℚ} (h1 : 1 ≤ f) (h2 : f ≤ 2 ^ 128) (junk : T)
    {b : Int} (hb : b < 2 ^ 62) {ns : List Int} (hn : ∀ n ∈ ns, 0 ≤ n) {l : List (Msg T)} {o : Out (List (SRes T))}
    (hl : Reads (α := Out (List (SRes T)))
      (life bits optimal P seed (some f) A junk (fun E => precomputeSender E b >>= fun _ => sends E ns)) l o)
    (hm : ∀ k, MeetsAll (createWants P.lower ++ (senderWants (hasherOf A bits optimal f 0) b A.lower ++
      senderMore (hasherOf A bits optimal f 0) b k)) l) : o.NoUB := by
  refine (life_safe W seed f junk ?_ l o hl (hm (A.fuel * ns.length))).1
  intro s sec
  have W' := (W.alone (bits := bits) H h1 h2 s sec).together
  refine Safe.bind (precomputeSender_safe W' hb (MPFSS.Coherent.new _)) ?_
  rintro - r1 rs1 ⟨rfl, t, v, c, hc, R⟩
  show Safe (senderMore (hasherOf A bits optimal f s) b _) _ _
  unfold senderMore
  rw [hc]
  exact sends_safe W' ns hn R (Nat.le_refl _)

/-! The hypotheses hold of a peer that sends what is wanted in the precomputation and then closes the connection. -/

/-- A new object with 40 bits of statistical security, created by the party with the higher id. -/
example : ∃ (l : List (Msg (BitVec 64))) (o : _), Reads (α := Out Vole) (voleCreate GGM.exCipher exactBits exact3 ⟨false, false, .ok (), .ok ()⟩ 4 (some ⟨0, 1, 2⟩) (some (2 ^ 40))) l o ∧
    MeetsAll (createWants false) l ∧ o.NoUB := by
  obtain ⟨k, o, hl⟩ := Reads.stream (M := Msg (BitVec 64)) (α := Out Vole)
    (voleCreate GGM.exCipher exactBits exact3 ⟨false, false, .ok (), .ok ()⟩ 4 (some ⟨0, 1, 2⟩) (some (2 ^ 40))) (answers (createWants false))
  have hm : MeetsAll (createWants false) _ := answers_meet (createWants false) _ k ⟨[], .inl (by simp)⟩
  exact ⟨_, o, hl, hm, C79_create _ _ _ (P := ⟨false, false, .ok (), .ok ()⟩) trivial trivial _ _ _ hl hm⟩

theorem ex_oneParty : OneParty ⟨true, false, .ok (), .ok ()⟩ (exEnv true 1) :=
  ⟨rfl, trivial, trivial, ex_world.threadsA, ex_world.orderA, ex_world.conforms, ex_world.depth⟩

/-- The party with the lower id creates an object with 40 bits of statistical security, as a receiver. -/
example : ∃ l o, Reads (α := Out (List (RRes (BitVec 64)))) (life exactBits exact3 ⟨true, false, .ok (), .ok ()⟩ 3 (some (2 ^ 40)) (exEnv true 1) 0
      (fun E => precomputeReceiver E 3000 5 >>= fun _ => receives E [10, 200000, 0, 100000000])) l o ∧ o.NoUB := by
  let h := hasherOf (exEnv true 1) exactBits exact3 (2 ^ 40) 0
  let ws := createWants true ++ receiverWants h 3000 true
  obtain ⟨k, o, hl⟩ := Reads.stream (α := Out (List (RRes (BitVec 64)))) (life exactBits exact3 ⟨true, false, .ok (), .ok ()⟩ 3 (some (2 ^ 40)) (exEnv true 1) 0
      (fun E => precomputeReceiver E 3000 5 >>= fun _ => receives E [10, 200000, 0, 100000000])) (answers ws)
  refine ⟨_, o, hl, C79_life_receiver_partial ex_oneParty exact3_faithful 3 (by norm_num) (by norm_num) 0 (by omega) 5 (by simp) hl ?_⟩
  exact fun k' => answers_meet ws _ k ⟨receiverMore h 3000 k', .inl (List.append_assoc _ _ _)⟩

/-- The same as a sender. -/
example : ∃ l o, Reads (α := Out (List (SRes (BitVec 64)))) (life exactBits exact3 ⟨true, false, .ok (), .ok ()⟩ 3 (some (2 ^ 40)) (exEnv true 1) 0
      (fun E => precomputeSender E 3000 >>= fun _ => sends E [10, 200000, 0, 100000000])) l o ∧ o.NoUB := by
  let h := hasherOf (exEnv true 1) exactBits exact3 (2 ^ 40) 0
  let ws := createWants true ++ senderWants h 3000 true
  obtain ⟨k, o, hl⟩ := Reads.stream (α := Out (List (SRes (BitVec 64)))) (life exactBits exact3 ⟨true, false, .ok (), .ok ()⟩ 3 (some (2 ^ 40)) (exEnv true 1) 0
      (fun E => precomputeSender E 3000 >>= fun _ => sends E [10, 200000, 0, 100000000])) (answers ws)
  refine ⟨_, o, hl, C79_life_sender_partial ex_oneParty exact3_faithful 3 (by norm_num) (by norm_num) 0 (by omega) (by simp) hl ?_⟩
  exact fun k' => answers_meet ws _ k ⟨senderMore h 3000 k', .inl (List.append_assoc _ _ _)⟩

end DVO.Create
