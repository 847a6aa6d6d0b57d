/-
Programs with several `DistributedVectorOLE` objects over the same connection.
-/
import Verif.Model.Create
import Verif.Spec.VOLE
import Mathlib.Logic.Function.Basic

namespace DVO.Several
open Net VOLE Create
variable {T : Type}

/-- What a program does: create object number `j`, or call one of its functions. -/
inductive Act (T : Type)
  | create (j : Nat)
  | call (j : Nat) (op : Op T)

/-- What a party brings along for each object: its end of the connection, the seed of the hasher, its environment, and what is in memory before. -/
structure Side (T : Type) where
  party : Party
  seed : Nat → Block
  env : Nat → Env T
  junk : Nat → T

/-- The objects of a party (null pointers before they are created), each with its environment. -/
abbrev Objects (T : Type) := Nat → Option (Env T × VState T)

/-- Continue with `f`, or stop with an error; `back` says what the state is then. -/
def andThen {M α β S S' : Type} (p : Proc M (Out α × S)) (back : S → S') (f : α → S → Proc M (Out β × S')) : Proc M (Out β × S') :=
  Proc.bind p fun
    | (.ok a, s) => f a s
    | (.err c m, s) => .ret (.err c m, back s)
    | (.throws m, s) => .ret (.throws m, back s)
    | (.ub w, s) => .ret (.ub w, back s)
    | (.diverge, s) => .ret (.diverge, back s)

/-- The program of the first (`me = true`) or second party, with `sec j` for the statistical security of object `j`. It stops at the first error. Returns the
    results of all calls. -/
def many [Scalar T] (bits : Sec → Nat → Nat → Nat → Bool) (optimal : Sec → Nat → Nat → Int) (X : Side T) (sec : Nat → Sec) (me : Bool) :
    List (Act T) → Objects T → Proc (Msg T) (Out (List (Answer T)) × Objects T)
  | [], O => .ret (.ok [], O)
  | .create j :: acts, O =>
    Proc.bind (voleCreate (X.env j).aes bits optimal X.party (X.seed j) (some (X.env j).c) (sec j)) fun
      | .ok o => many bits optimal X sec me acts
          (Function.update O j (some ({ X.env j with sec := o.sec }, VState.new (MPFSS.State.new o.mpfss.hasher) (X.junk j))))
      | .err c m => .ret (.err c m, O)
      | .throws m => .ret (.throws m, O)
      | .ub w => .ret (.ub w, O)
      | .diverge => .ret (.diverge, O)
  | .call j op :: acts, O =>
    match O j with
    | none => .ret (.ub "null pointer", O)
    | some (E, s) =>
      andThen ((if op.fwd = me then asSender E op else asReceiver E op) s) (fun s => Function.update O j (some (E, s))) fun a s =>
        andThen (many bits optimal X sec me acts (Function.update O j (some (E, s)))) id fun as O => .ret (.ok (a :: as), O)

/-- No call of a function of an object that has not been created; `L` says which ones have been. -/
def Alive : List (Act T) → (Nat → Bool) → Prop
  | [], _ => True
  | .create j :: acts, L => Alive acts (Function.update L j true)
  | .call j _ :: acts, L => L j = true ∧ Alive acts L

/-- What the results should be; `D j` are the current values of `delta` of object `j` in the two directions. -/
def Results [Scalar T] : List (Act T) → (Nat → Option T × Option T) → List (Answer T) → List (Answer T) → Prop
  | [], _, as, bs => as = [] ∧ bs = []
  | .create j :: acts, D, as, bs => Results acts (Function.update D j (none, none)) as bs
  | .call j op :: acts, D, as, bs => ∃ a as' b bs' d, as = a :: as' ∧ bs = b :: bs' ∧
      (if op.fwd then Expect op (D j).1 a b d ∧ Results acts (Function.update D j (some d, (D j).2)) as' bs'
       else Expect op (D j).2 b a d ∧ Results acts (Function.update D j ((D j).1, some d)) as' bs')

/-- Both parties have the same objects, and these agree on everything about future expansions. -/
def InStepAll (O O' : Objects T) : Prop :=
  ∀ j, O j = none ∧ O' j = none ∨ ∃ E s E' r, O j = some (E, s) ∧ O' j = some (E', r) ∧ InStep s r

end DVO.Several
