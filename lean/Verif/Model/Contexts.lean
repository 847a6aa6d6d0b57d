/-
NTL moduli in the threads of OpenMP regions. NTL keeps the modulus of `ZZ_p` and `zz_p` per thread
(`NTLContext`, internal/ntl_helpers.h:41-51, copies it), so it matters which thread executes an iteration.
-/
import Verif.Model.VOLE

namespace DVO.Contexts
variable {σ α : Type}

/-- The moduli installed in the threads that execute the parallel regions of one calling thread.
    Thread 0 is the calling thread. `none`: nothing installed yet. (The state that `save` and `restore`
    of internal/ntl_helpers.h:41-51 read and write.) -/
abbrev Pool := Nat → Option Nat

/-- A parallel region with a loop. `restore`: whether the region starts with `context.restore()`, for a
    context saved by the calling thread just before; `team`: the number of threads; `who j`: the thread
    that executes iteration `j`; `body p j`: what iteration `j` does with modulus `p`.
    (all_but_one_random_ot.h:75-88, 112-124; spfss_known_index.h:114-126, 146-158;
    mpfss_known_indices.h:236-258; distributed_vector_ole.h:221-224; without `restore` the products
    distributed_vector_ole.h:462, 464, 493, which Eigen distributes over the threads.) -/
structure Region (σ : Type) where
  restore : Bool
  team : Nat
  who : Nat → Nat
  count : Nat
  body : Nat → Nat → σ → Out σ

/-- The pool after the threads have entered the region (e.g. all_but_one_random_ot.h:75-79). -/
def Region.enter (r : Region σ) (P : Pool) : Pool :=
  if r.restore then fun i => if i < r.team then P 0 else P i else P

/-- Arithmetic in thread `i`; NTL dereferences a null pointer if no modulus is installed
    (e.g. internal/scalar_helpers.h:120). -/
def inThread (P : Pool) (i : Nat) (f : Nat → Out α) : Out α :=
  match P i with
  | none => .ub "no modulus installed"
  | some p => f p

/-- The loop of a region (e.g. all_but_one_random_ot.h:80-86). For the order of the iterations see
    `Parallel`. -/
def Region.run (r : Region σ) (P : Pool) (s : σ) : Out σ :=
  loop (fun j s => inThread (r.enter P) (r.who j) (fun p => r.body p j s)) 0 r.count s

/-- The regions of one call, one after the other, executed by the same pool
    (e.g. distributed_vector_ole.h:447-464). -/
def call : List (Region σ) → Pool → σ → Out (σ × Pool)
  | [], P, s => .ok (s, P)
  | r :: l, P, s => r.run P s >>= call l (r.enter P)

/-- `RunSenderBatched` or `RunReceiverBatched` of `AllButOneRandomOT` (all_but_one_random_ot.h:75-88,
    112-124). The loops of `SendTrees` and `ReceiveTrees` do not touch elements. -/
def rot (omp : Nat) (who : Nat → Nat) (k : Nat) (unpack : Nat → Nat → σ → Out σ) : List (Region σ) :=
  [⟨true, omp, who, k, unpack⟩]

/-- The two roles of `SPFSSKnownIndex` (spfss_known_index.h:103-130, 132-168): first the random OT, then
    the sums. -/
def spfss (omp : Nat) (who who' : Nat → Nat) (k : Nat) (unpack sums : Nat → Nat → σ → Out σ) : List (Region σ) :=
  rot omp who k unpack ++ [⟨true, omp, who', k, sums⟩]

/-- `RunValueProviderVectorOLE` (mpfss_known_indices.h:140-174). -/
def mpfssValue (omp : Nat) (who who' : Nat → Nat) (k : Nat) (unpack sums : Nat → Nat → σ → Out σ) : List (Region σ) :=
  spfss omp who who' k unpack sums

/-- `RunIndexProviderVectorOLE` (mpfss_known_indices.h:176-269): the buckets are set up in parallel
    (lines 236-258) before the SPFSS. -/
def mpfssIndex (omp : Nat) (who who' who'' : Nat → Nat) (k : Nat) (setup unpack sums : Nat → Nat → σ → Out σ) :
    List (Region σ) :=
  ⟨true, omp, who, k, setup⟩ :: spfss omp who' who'' k unpack sums

/-- The restoring region of `Create` (distributed_vector_ole.h:221-224). -/
def create (omp : Nat) : List (Region σ) := [⟨true, omp, fun _ => 0, 0, fun _ _ s => .ok s⟩]

/-- `u * code_generator_`, distributed over `eigen` threads; column `j` is computed by thread `who j`
    (distributed_vector_ole.h:462, 464, 493). -/
def product (eigen : Nat) (who : Nat → Nat) (n : Nat) (col : Nat → Nat → σ → Out σ) : Region σ := ⟨false, eigen, who, n, col⟩

/-- `ExpandSender` (distributed_vector_ole.h:420-473): MPFSS as the index provider, then two products. -/
def expandSender (omp eigen : Nat) (who : Nat → Nat → Nat) (k n : Nat) (setup unpack sums colU colV : Nat → Nat → σ → Out σ) :
    List (Region σ) :=
  mpfssIndex omp (who 0) (who 1) (who 2) k setup unpack sums ++ [product eigen (who 3) n colU, product eigen (who 4) n colV]

/-- `ExpandReceiver` (distributed_vector_ole.h:475-503): MPFSS as the value provider, then one product. -/
def expandReceiver (omp eigen : Nat) (who : Nat → Nat → Nat) (k n : Nat) (unpack sums colW : Nat → Nat → σ → Out σ) :
    List (Region σ) :=
  mpfssValue omp (who 0) (who 1) k unpack sums ++ [product eigen (who 2) n colW]

/-- NTL's product of two representatives modulo `p`; they have to be reduced
    (used by distributed_vector_ole.h:462, 464, 493). -/
def mulMod (p a b : Nat) : Out Nat := if a < p ∧ b < p then .ok (a * b % p) else .ub "not reduced"

/-- NTL's sum of two representatives modulo `p` (used by distributed_vector_ole.h:462, 464, 493). -/
def addMod (p a b : Nat) : Out Nat := if a < p ∧ b < p then .ok ((a + b) % p) else .ub "not reduced"

/-- `VOLE.colDot` on representatives (part of distributed_vector_ole.h:462, 464, 493). -/
def colDot (p : Nat) (u : List Nat) : List (Nat × Nat) → Out Nat
  | [] => .ok 0
  | (r, x) :: l => do
    let a ← rd u r
    let rest ← colDot p u l
    let m ← mulMod p a x
    addMod p m rest

/-- One column of the product, stored in the result (distributed_vector_ole.h:462, 464, 493). -/
def column (u : List Nat) (cols : List (List (Nat × Nat))) (p j : Nat) (out : List Nat) : Out (List Nat) := do
  let c ← rd cols j
  let x ← colDot p u c
  wr out j x

end DVO.Contexts
