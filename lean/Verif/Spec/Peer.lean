/-
Specification vocabulary for one party talking to any peer.
-/
import Verif.Spec.MPFSS

namespace DVO

/-- `p` returns `a` after receiving the messages `l`, in this order, from whoever it talks to. An oblivious transfer
    returns one block per choice bit: these the library writes into an array of this size. -/
inductive Reads {M α : Type} : Proc M α → List M → α → Prop
  | ret (a) : Reads (.ret a) [] a
  | send (ch m k l a) : Reads k l a → Reads (.send ch m k) l a
  | recv (ch k m l a) : Reads (k m) l a → Reads (.recv ch k) (m :: l) a
  | otSend (ch kd ms k l a) : Reads k l a → Reads (.otSend ch kd ms k) l a
  | otRecv (ch kd cs k r l a) : r.length = cs.length → Reads (k r) l a → Reads (.otRecv ch kd cs k) l a

/-- What a party asks its connection for: the two keys of a tree (a fixed number of bytes), or a vector of elements (of
    any length). -/
inductive Request
  | keys
  | vector

/-- The connection answers a request, or the peer has closed it. -/
def Answers {T : Type} : Request → Msg T → Prop
  | _, .closed => True
  | .keys, .blocks b => b.length = 2
  | .vector, .elems _ => True
  | _, _ => False

/-- The messages `l` answer the requests `rs`, as far as they go. -/
def AnswersAll {T : Type} (rs : List Request) (l : List (Msg T)) : Prop :=
  ∀ (i : Nat) (r : Request) (m : Msg T), rs[i]? = some r → l[i]? = some m → Answers r m

/-- Message `i` of `l`, if it is a vector, has `n` elements or more. -/
def LongEnough {T : Type} (i n : Nat) (l : List (Msg T)) : Prop := ∀ v, l[i]? = some (.elems v) → n ≤ v.length

/-- Message `i` of `l`, if it is a vector, has exactly `n` elements. -/
def Exactly {T : Type} (i n : Nat) (l : List (Msg T)) : Prop := ∀ v, l[i]? = some (.elems v) → v.length = n

/-- Whatever answers to its requests `rs` the party gets, as far as they are in `Q`, it has no undefined behaviour. -/
def Robust {T α : Type} (rs : List Request) (Q : List (Msg T) → Prop) (p : PM (Msg T) α) : Prop :=
  ∀ l o, AnswersAll rs l → Q l → Reads (α := Out α) p l o → o.NoUB

end DVO
