/-
C54: the `Create` functions.
-/
import Verif.Model.Create
import Verif.Proofs.Local

namespace DVO.Create
open Net
variable {T : Type}

/-- The call returns INVALID_ARGUMENT at once, without any communication. -/
def Rejected {M α : Type} (p : PM M α) : Prop := ∃ msg, p = Proc.ret (.err .invalidArgument msg)

/-- C54: a null channel is rejected by all five functions. -/
theorem C54_null (aes : Cipher) (bits : Sec → Nat → Nat → Nat → Bool) (optimal : Sec → Nat → Nat → Int) (P : Party) (seed : Block) (sec : Sec) :
    Rejected (rotCreate P none sec : PM (Msg T) _) ∧ Rejected (spfssCreate P none sec : PM (Msg T) _) ∧
    Rejected (gilboaCreate P none sec : PM (Msg T) _) ∧ Rejected (mpfssCreate aes bits optimal P seed none sec : PM (Msg T) _) ∧
    Rejected (voleCreate aes bits optimal P seed none sec : PM (Msg T) _) :=
  ⟨⟨_, rfl⟩, ⟨_, rfl⟩, ⟨_, rfl⟩, ⟨_, rfl⟩, ⟨_, rfl⟩⟩

/-- C54: negative statistical security (`2^s < 1`) is rejected by all five functions. -/
theorem C54_negative (aes : Cipher) (bits : Sec → Nat → Nat → Nat → Bool) (optimal : Sec → Nat → Nat → Int) (P : Party) (seed : Block)
    (channel : Option Chans) (f : ℚ) (hf : f < 1) :
    Rejected (rotCreate P channel (some f) : PM (Msg T) _) ∧ Rejected (spfssCreate P channel (some f) : PM (Msg T) _) ∧
    Rejected (gilboaCreate P channel (some f) : PM (Msg T) _) ∧ Rejected (mpfssCreate aes bits optimal P seed channel (some f) : PM (Msg T) _) ∧
    Rejected (voleCreate aes bits optimal P seed channel (some f) : PM (Msg T) _) := by
  have h : negative (some f) = true := by simp [negative, hf]
  cases channel with
  | none => exact C54_null aes bits optimal P seed _
  | some ch =>
    refine ⟨⟨"`statistical_security` must not be negative.", ?_⟩, ⟨"`statistical_security` must not be negative.", ?_⟩, ⟨"`statistical_security` must not be negative.", ?_⟩,
      ⟨"`statistical_security` must not be negative.", ?_⟩, ⟨"`statistical_security` must not be negative.", ?_⟩⟩
    · unfold rotCreate; rw [h]; rfl
    · unfold spfssCreate; rw [h]; rfl
    · unfold gilboaCreate; rw [h]; rfl
    · unfold mpfssCreate; rw [h]; rfl
    · unfold voleCreate; rw [h]; rfl

/-- Everything else, including NaN, is accepted: the first thing that happens is `sync`. -/
theorem C54_accepted (P : Party) (ch : Chans) (sec : Sec) (h : ∀ f, sec = some f → 1 ≤ f) :
    (rotCreate P (some ch) sec : PM (Msg T) _) = (do sync P ch; PM.lift P.rotAdapter; pure sec) ∧
    (gilboaCreate P (some ch) sec : PM (Msg T) _) = (do sync P ch; PM.lift P.gilboaAdapter; pure sec) := by
  have hn : negative sec = false := by
    cases sec with
    | none => rfl
    | some f => simp [negative, h f rfl]
  unfold rotCreate gilboaCreate
  rw [hn]
  exact ⟨rfl, rfl⟩

/-- Two parties on the two ends of a connection, whose adapters can be created. -/
structure Peers (P Q : Party) : Prop where
  ids : Q.lower = !P.lower
  sync : Q.sendFirst = P.sendFirst
  rotP : P.rotAdapter = .ok ()
  rotQ : Q.rotAdapter = .ok ()
  gilboaP : P.gilboaAdapter = .ok ()
  gilboaQ : Q.gilboaAdapter = .ok ()

theorem Peers.swap {P Q : Party} (h : Peers P Q) : Peers Q P :=
  ⟨by rw [h.ids]; simp, h.sync.symm, h.rotQ, h.rotP, h.gilboaQ, h.gilboaP⟩

theorem sync_joint {P Q : Party} (h : Peers P Q) (ch : Chans) :
    ∃ va vb, Joint (sync P ch : PM (Msg T) Unit) (sync Q ch : PM (Msg T) Unit) (.ok ()) (.ok ()) va vb := by
  have h1 := h.ids
  have h2 := h.sync
  unfold sync
  cases hs : P.sendFirst with
  | true =>
    rw [h2, hs]
    exact ⟨_, _, Joint.exchange (m := Msg.token) (m' := Msg.token) (k := fun m => PM.lift (unToken m)) (k' := fun m => PM.lift (unToken m)) (Joint.ret _ _)⟩
  | false =>
    rw [h2, hs, h1]
    cases P.lower with
    | true =>
      simp only [Bool.false_or, Bool.not_true, Bool.false_eq_true, if_true, if_false]
      exact ⟨_, _, Joint.sendRecv (ch := ch.main) (m := Msg.token)
        (k := Proc.recv ch.main (fun m => PM.lift (unToken m))) (k' := fun m => (PM.lift (unToken m) >>= fun _ => PM.send ch.main .token : PM (Msg T) Unit))
        (Joint.recvSend (m := Msg.token) (k := fun m => PM.lift (unToken m)) (k' := .ret (Out.ok ())) (Joint.ret _ _))⟩
    | false =>
      simp only [Bool.false_or, Bool.not_false, Bool.false_eq_true, if_true, if_false]
      exact ⟨_, _, Joint.recvSend (ch := ch.main) (m := Msg.token)
        (k' := Proc.recv ch.main (fun m => PM.lift (unToken m))) (k := fun m => (PM.lift (unToken m) >>= fun _ => PM.send ch.main .token : PM (Msg T) Unit))
        (Joint.sendRecv (m := Msg.token) (k' := fun m => PM.lift (unToken m)) (k := .ret (Out.ok ())) (Joint.ret _ _))⟩

theorem bindOk' {M α β γ δ : Type} {p : PM M α} {q : PM M β} {a b} {f : α → PM M γ} {g : β → PM M δ} {c d}
    (h1 : ∃ va vb, Joint p q (.ok a) (.ok b) va vb) (h2 : ∃ va vb, Joint (f a) (g b) c d va vb) :
    ∃ va vb, Joint (p >>= f : PM M γ) (q >>= g : PM M δ) c d va vb := by
  obtain ⟨va, vb, h1⟩ := h1
  obtain ⟨va', vb', h2⟩ := h2
  exact ⟨_, _, Joint.bindOk h1 h2⟩

theorem rot_joint {P Q : Party} (h : Peers P Q) (ch : Chans) {sec : Sec} (hs : ∀ f, sec = some f → 1 ≤ f) :
    ∃ va vb, Joint (rotCreate P (some ch) sec : PM (Msg T) _) (rotCreate Q (some ch) sec : PM (Msg T) _) (.ok sec) (.ok sec) va vb := by
  rw [(C54_accepted P ch sec hs).1, (C54_accepted Q ch sec hs).1]
  refine bindOk' (sync_joint h ch) ?_
  rw [h.rotP, h.rotQ]
  exact ⟨_, _, Joint.ret _ _⟩

theorem gilboa_joint {P Q : Party} (h : Peers P Q) (ch : Chans) {sec : Sec} (hs : ∀ f, sec = some f → 1 ≤ f) :
    ∃ va vb, Joint (gilboaCreate P (some ch) sec : PM (Msg T) _) (gilboaCreate Q (some ch) sec : PM (Msg T) _) (.ok sec) (.ok sec) va vb := by
  rw [(C54_accepted P ch sec hs).2, (C54_accepted Q ch sec hs).2]
  refine bindOk' (sync_joint h ch) ?_
  rw [h.gilboaP, h.gilboaQ]
  exact ⟨_, _, Joint.ret _ _⟩

theorem not_negative {sec : Sec} (hs : ∀ f, sec = some f → 1 ≤ f) : negative sec = false := by
  cases sec with
  | none => rfl
  | some f => simp [negative, hs f rfl]

theorem spfss_eq (P : Party) (ch : Chans) {sec : Sec} (hs : ∀ f, sec = some f → 1 ≤ f) :
    (spfssCreate P (some ch) sec : PM (Msg T) _) = rotCreate P (some ch) sec := by
  unfold spfssCreate
  rw [not_negative hs]
  rfl

theorem seed_joint {P Q : Party} (h : Peers P Q) (ch : Chans) (seed seed' : Block) :
    ∃ va vb, Joint (hasherSeed P ch seed : PM (Msg T) _) (hasherSeed Q ch seed' : PM (Msg T) _)
      (.ok (if P.lower then seed else seed')) (.ok (if P.lower then seed else seed')) va vb := by
  have h1 := h.ids
  unfold hasherSeed
  rw [h1]
  cases P.lower with
  | true => exact ⟨_, _, Joint.sendRecv (m := Msg.blocks [seed]) (k := .ret (Out.ok seed)) (k' := fun m => PM.lift (unBlock m)) (Joint.ret _ _)⟩
  | false => exact ⟨_, _, Joint.recvSend (m := Msg.blocks [seed']) (k' := .ret (Out.ok seed')) (k := fun m => PM.lift (unBlock m)) (Joint.ret _ _)⟩

theorem scale {sec : Sec} (hs : ∀ f, sec = some f → 1 ≤ f) (c : ℚ) (hc : 1 ≤ c) : ∀ f, sec.map (· * c) = some f → 1 ≤ f := by
  intro f hf
  cases sec with
  | none => cases hf
  | some g =>
    have := hs g rfl
    have e : g * c = f := Option.some.inj hf
    nlinarith

/-- The MPFSS object made from the seed that the party with the lower id draws. -/
def agreed (aes : Cipher) (bits : Sec → Nat → Nat → Nat → Bool) (optimal : Sec → Nat → Nat → Int) (seed : Block) (sec : Sec) : Mpfss :=
  ⟨⟨aes seed, 3, bits (sec.map (· * 2)) 3, optimal (sec.map (· * 2)) 3⟩, sec.map (· * 2)⟩

theorem mpfss_joint (aes : Cipher) (bits : Sec → Nat → Nat → Nat → Bool) (optimal : Sec → Nat → Nat → Int) {P Q : Party} (h : Peers P Q)
    (seed seed' : Block) (ch : Chans) {sec : Sec} (hs : ∀ f, sec = some f → 1 ≤ f) :
    ∃ va vb, Joint (mpfssCreate aes bits optimal P seed (some ch) sec : PM (Msg T) _) (mpfssCreate aes bits optimal Q seed' (some ch) sec : PM (Msg T) _)
      (.ok (agreed aes bits optimal (if P.lower then seed else seed') sec)) (.ok (agreed aes bits optimal (if P.lower then seed else seed') sec)) va vb := by
  unfold mpfssCreate
  rw [not_negative hs]
  simp only [Bool.false_eq_true, if_false]
  have h2 := scale hs 2 (by norm_num)
  rw [spfss_eq P ch h2, spfss_eq Q ch h2]
  refine bindOk' (sync_joint h ch) (bindOk' (rot_joint h ch h2) (bindOk' (seed_joint h ch seed seed') ?_))
  exact ⟨_, _, Joint.ret _ _⟩

/-- C54: with a valid statistical security, every interleaving of the two parties'
    `MPFSSKnownIndices::Create` ends with OK on both sides, and both hold the same hasher, seeded by
    the party with the lower id. -/
theorem C54_mpfss_pair (aes : Cipher) (bits : Sec → Nat → Nat → Nat → Bool) (optimal : Sec → Nat → Nat → Int) {P Q : Party} (h : Peers P Q)
    (seed seed' : Block) (ch : Chans) {sec : Sec} (hs : ∀ f, sec = some f → 1 ≤ f) :
    ∃ o va vb, Computes (mpfssCreate aes bits optimal P seed (some ch) sec : PM (Msg T) _) (mpfssCreate aes bits optimal Q seed' (some ch) sec : PM (Msg T) _)
      (.ok o) (.ok o) va vb ∧ o.hasher.enc = aes (if P.lower then seed else seed') ∧ o.hasher.numHash = 3 ∧ o.spfss = sec.map (· * 2) := by
  obtain ⟨va, vb, j⟩ := mpfss_joint (T := T) aes bits optimal h seed seed' ch hs
  exact ⟨_, va, vb, j.computes, rfl, rfl, rfl⟩

theorem vole_joint (aes : Cipher) (bits : Sec → Nat → Nat → Nat → Bool) (optimal : Sec → Nat → Nat → Int) {P Q : Party} (h : Peers P Q)
    (seed seed' : Block) (ch : Chans) {sec : Sec} (hs : ∀ f, sec = some f → 1 ≤ f) :
    ∃ va vb, Joint (voleCreate aes bits optimal P seed (some ch) sec : PM (Msg T) _) (voleCreate aes bits optimal Q seed' (some ch) sec : PM (Msg T) _)
      (.ok ⟨agreed aes bits optimal (if P.lower then seed else seed') (sec.map (· * 3)), sec.map (· * 3), sec.map (· * 3)⟩)
      (.ok ⟨agreed aes bits optimal (if P.lower then seed else seed') (sec.map (· * 3)), sec.map (· * 3), sec.map (· * 3)⟩) va vb := by
  have h3 := scale hs 3 (by norm_num)
  unfold voleCreate
  rw [not_negative hs]
  simp only [Bool.false_eq_true, if_false]
  refine bindOk' (gilboa_joint h ch h3) (bindOk' (mpfss_joint aes bits optimal h seed seed' ch h3) ?_)
  exact ⟨_, _, Joint.ret _ _⟩

/-- C54: the same for `DistributedVectorOLE::Create`. The statistical security is divided by 3, and
    that of the SPFSS object and the hasher by 6. -/
theorem C54_vole_pair (aes : Cipher) (bits : Sec → Nat → Nat → Nat → Bool) (optimal : Sec → Nat → Nat → Int) {P Q : Party} (h : Peers P Q)
    (seed seed' : Block) (ch : Chans) {sec : Sec} (hs : ∀ f, sec = some f → 1 ≤ f) :
    ∃ o va vb, Computes (voleCreate aes bits optimal P seed (some ch) sec : PM (Msg T) _) (voleCreate aes bits optimal Q seed' (some ch) sec : PM (Msg T) _)
      (.ok o) (.ok o) va vb ∧ o.mpfss.hasher.enc = aes (if P.lower then seed else seed') ∧ o.mpfss.hasher.numHash = 3 ∧
      o.sec = sec.map (· * 3) ∧ o.gilboa = o.sec ∧ o.mpfss.spfss = o.sec.map (· * 2) := by
  obtain ⟨va, vb, j⟩ := vole_joint (T := T) aes bits optimal h seed seed' ch hs
  exact ⟨_, va, vb, j.computes, rfl, rfl, rfl, rfl, rfl⟩

/-- Two such parties, with 40 bits of security. -/
example : Peers ⟨true, false, .ok (), .ok ()⟩ ⟨false, false, .ok (), .ok ()⟩ ∧ ∀ f, (some (2 ^ 40) : Sec) = some f → 1 ≤ f := by
  refine ⟨⟨rfl, rfl, rfl, rfl, rfl, rfl⟩, ?_⟩
  rintro f ⟨⟩
  norm_num

end DVO.Create
