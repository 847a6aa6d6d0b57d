/-
OpenMP loops whose iterations interleave. The rest of the model runs the iterations in order.
-/
import Verif.Model.SPFSS
import Verif.Model.MPFSS

namespace DVO.Par

/-- Shared memory as the `#pragma omp for` loops of the library use it (all_but_one_random_ot.h:77-80, 114-117,
    183, all_but_one_random_ot.cpp:103, spfss_known_index.h:116-119, 148-151, mpfss_known_indices.h:238-241,
    cuckoo_hasher.h:121): some arrays, seen as one slot per iteration. -/
structure Mem (σ α : Type) where
  get : σ → Nat → Option α
  set : σ → Nat → α → σ
  get_set : ∀ s i a, (get s i).isSome → get (set s i a) i = some a
  get_set_ne : ∀ s i j a, i ≠ j → get (set s i a) j = get s j
  set_set : ∀ s i a b, set (set s i a) i b = set s i b
  set_comm : ∀ s i j a b, i ≠ j → set (set s i a) j b = set (set s j b) i a
  set_get : ∀ s i a, get s i = some a → set s i a = s

/-- One array (e.g. `outputs`, all_but_one_random_ot.h:81-86). -/
def Mem.list (α : Type) : Mem (List α) α where
  get l i := l[i]?
  set l i a := l.set i a
  get_set l i a h := by
    obtain ⟨b, hb⟩ := Option.isSome_iff_exists.1 h
    rw [List.getElem?_eq_some_iff] at hb
    rw [List.getElem?_set_self hb.1]
  get_set_ne l i j a h := List.getElem?_set_ne h
  set_set l i a b := List.set_set ..
  set_comm l i j a b h := List.set_comm _ _ h
  set_get l i a h := by
    rw [List.getElem?_eq_some_iff] at h
    rw [← h.2, List.set_getElem_self]

/-- Two arrays (e.g. `sums` and `outputs`, spfss_known_index.h:120-125). -/
def Mem.pair (α β : Type) : Mem (List α × List β) (α × β) where
  get s i := match s.1[i]?, s.2[i]? with
    | some a, some b => some (a, b)
    | _, _ => none
  set s i a := (s.1.set i a.1, s.2.set i a.2)
  get_set s i a h := by
    cases h1 : s.1[i]? with
    | none => rw [h1] at h; cases h
    | some x =>
      cases h2 : s.2[i]? with
      | none => rw [h1, h2] at h; cases h
      | some y =>
        rw [List.getElem?_eq_some_iff] at h1 h2
        simp only [List.getElem?_set_self h1.1, List.getElem?_set_self h2.1]
  get_set_ne s i j a h := by simp only [List.getElem?_set_ne h]
  set_set s i a b := by simp only [List.set_set]
  set_comm s i j a b h := by simp only [List.set_comm _ _ h]
  set_get s i a h := by
    cases h1 : s.1[i]? with
    | none => rw [h1] at h; cases h
    | some x =>
      cases h2 : s.2[i]? with
      | none => rw [h1, h2] at h; cases h
      | some y =>
        rw [h1, h2] at h
        cases h
        rw [List.getElem?_eq_some_iff] at h1 h2
        rw [← h1.2, ← h2.2, List.set_getElem_self, List.set_getElem_self]

/-- One array and a variable that is not in any slot (`trees` and `status`, all_but_one_random_ot.cpp:101-102). -/
def Mem.fst (α β : Type) : Mem (List α × β) α where
  get s i := s.1[i]?
  set s i a := (s.1.set i a, s.2)
  get_set s i a h := (Mem.list α).get_set s.1 i a h
  get_set_ne s i j a h := (Mem.list α).get_set_ne s.1 i j a h
  set_set s i a b := by rw [show (s.1.set i a).set i b = s.1.set i b from List.set_set ..]
  set_comm s i j a b h := by
    show ((s.1.set i a).set j b, s.2) = ((s.1.set j b).set i a, s.2)
    rw [List.set_comm _ _ h]
  set_get s i a h := by rw [show s.1.set i a = s.1 from (Mem.list α).set_get s.1 i a h]

/-- An access of iteration `i` to its own slot.
    The loops are in all_but_one_random_ot.h:77-80, 114-117, 183; all_but_one_random_ot.cpp:103;
    spfss_known_index.h:116-119, 148-151; mpfss_known_indices.h:238-241; cuckoo_hasher.h:121. -/
def Mem.upd {σ α : Type} (M : Mem σ α) (i : Nat) (f : α → Out α) (s : σ) : Out σ :=
  match M.get s i with
  | none => .ub "out of bounds"
  | some a => f a >>= fun a => .ok (M.set s i a)

/-- Steps one after the other.
    (No code of its own; for the loops listed at `Mem.upd`, e.g. spfss_known_index.h:116-119.) -/
def run {α : Type} : List (α → Out α) → α → Out α
  | [], a => .ok a
  | f :: l, a => f a >>= run l

/-- An execution: the steps in the order in which they happen, each with the number of its iteration.
    (The meaning of `#pragma omp parallel for`, e.g. spfss_known_index.h:116.) -/
abbrev Trace (σ : Type) := List (Nat × (σ → Out σ))

/-- The effect of an execution. (The meaning of `#pragma omp parallel for`, e.g. spfss_known_index.h:116.) -/
def exec {σ : Type} (t : Trace σ) (s : σ) : Out σ := run (t.map (·.2)) s

/-- `t` is an execution of the iterations `0, ..., n - 1`, where iteration `i` consists of the steps
    `body i`, under some schedule: the steps of every iteration occur in their order, and those of
    different iterations interleave in any way.
    (The meaning of `#pragma omp parallel for`, e.g. spfss_known_index.h:116.) -/
def Interleaving {σ : Type} (n : Nat) (body : Nat → List (σ → Out σ)) (t : Trace σ) : Prop :=
  (∀ a ∈ t, a.1 < n) ∧ ∀ i < n, (t.filter (fun a => a.1 == i)).map (·.2) = body i

/-- `t` is an execution of a loop of `n` iterations on the memory `s` under some schedule, with the body `F i` of iteration
    `i` divided into any sequence of steps on its slot.
    (The meaning of `#pragma omp parallel for`, e.g. spfss_known_index.h:116.) -/
def Schedule {σ α : Type} (M : Mem σ α) (n : Nat) (F : Nat → α → Out α) (s : σ) (t : Trace σ) : Prop :=
  ∃ acts : Nat → List (α → Out α), (∀ i < n, ∀ a, M.get s i = some a → run (acts i) a = F i a) ∧
    Interleaving n (fun i => (acts i).map (M.upd i)) t

/-- The body of the loop creating the trees (all_but_one_random_ot.h:184-192). -/
def createBody (aes : Cipher) (fl : Nat → Nat → Nat) (keys : List Block) (seed : Nat → Block) (numLeaves : List Nat) (i : Nat)
    (slot : Option (Out GGM.Tree)) : Out (Option (Out GGM.Tree)) := do
  let n ← rd numLeaves i
  if n = 0 then .ok slot else .ok (some (GGM.create aes fl (n : Int) (seed i) keys))

/-- The body of the unpacking loops (all_but_one_random_ot.h:81-86, 118-123). -/
def unpackBody {T : Type} [Scalar T] (trees : List (Option GGM.Tree)) (i : Nat) (o : List T) : Out (List T) :=
  if o.length = 0 then .ok o else do
  match ← rd trees i with
  | none => .ub "null pointer"
  | some t => ROT.unpackLastLevel t o

/-- The body of the loop of the value provider (spfss_known_index.h:120-125). -/
def sumBody {T : Type} [Scalar T] (_ : Nat) (st : T × List T) : Out (T × List T) := SPFSS.sumNegate st.1 st.2

/-- The body of the loop of the index provider (spfss_known_index.h:152-158); `outputs` and `indices` are only
    read. -/
def subBody {T : Type} [Scalar T] (indices : List Int) (outputs : List (List T)) (j : Nat) (s : T) : Out T := do
  let row ← rd outputs j
  let idx ← rd indices j
  SPFSS.subOthers s row idx

/-- The body of the loop of `Hash` (cuckoo_hasher.h:122-127). -/
def hashBody (h : Cuckoo.Hasher) (numBuckets : Int) (inputs : List Block) (i : Nat) (row : List Nat) : Out (List Nat) := do
  let x ← rd inputs i
  Cuckoo.hashRow h numBuckets x row

/-- The body of the loop over the buckets (mpfss_known_indices.h:242-260), on the slots of `index_in_bucket` and
    `bucket_outputs`. -/
def bucketBody {T : Type} [Scalar T] (buckets : List (List Nat)) (indices hashed : List Int) (i : Nat) (st : Int × List T) :
    Out (Int × List T) := do
  let b ← rd buckets i
  if b.length = 0 then .ok st else
  let outs := List.replicate b.length (0 : T)
  let e ← rd hashed i
  if e ≠ -1 then
    let ix ← rdI indices e
    .ok ((MPFSS.lowerBound b ix : Int), outs)
  else .ok (st.1, outs)

/-- The tree of one iteration of the loop of `ReceiveTrees` (all_but_one_random_ot.cpp:105-123). -/
def buildOne (aes : Cipher) (fl : Nat → Nat → Nat) (keys : List Block) (choices : List Bool) (otResults : List Block)
    (offsets numLeaves : List Nat) (indices : List Int) (i : Nat) : Out (Option GGM.Tree) := do
  let n ← rd numLeaves i
  if n = 0 then .ok none else
  let o0 ← rd offsets i
  let o1 ← rd offsets (i + 1)
  let xors ← ROT.xorTable choices otResults o0 (o1 - o0)
  let idx ← rd indices i
  let t ← GGM.createFromXor aes fl 2 n idx xors keys
  .ok (some t)

/-- Lines 124-128 of all_but_one_random_ot.cpp: store the tree in `trees[i]`, or the status in the shared variable
    `status`. (all_but_one_random_ot.cpp:124-128.) -/
def buildStore (r : Out (Option GGM.Tree)) (i : Nat) (st : List (Option GGM.Tree) × Option (Code × String)) :
    Out (List (Option GGM.Tree) × Option (Code × String)) :=
  match r with
  | .ok none => .ok st
  | .ok (some t) => do
    let trees ← wr st.1 i (some t)
    .ok (trees, st.2)
  | .err c m => .ok (st.1, some (c, m))
  | .throws m => .throws m
  | .ub w => .ub w
  | .diverge => .diverge

end DVO.Par
