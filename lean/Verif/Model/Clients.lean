/-
Model of the programs that use the library: the experiments and the benchmarks.
-/
import Verif.Model.Create
import Verif.Model.Tests

namespace DVO.Clients
open Create VOLE
variable {T : Type} [Scalar T]

/-! ### Experiments -/

/-- The default statistical security, 40 bits (distributed_vector_ole.h:68,
    spfss_known_index.h:51, mpfss_known_indices.h:58, scalar_vector_gilboa_product.h:44). -/
def defaultSec : Sec := some (2 ^ 40)

/-- Create a `DistributedVectorOLE<T>` and call its member functions (experiments.cpp:85-99;
    distributed_vector_ole_benchmark.cpp:88-99, 253-269, 273-293); with the state of the object at the end.
    Errors end the program: they are returned (experiments.cpp:85, 96, 98), or `ValueOrDie` aborts. -/
def withVOLE {α : Type} (bits : Sec → Nat → Nat → Nat → Bool) (optimal : Sec → Nat → Nat → Int) (P : Party) (seed : Block) (E : Env T)
    (junk : T) (body : Env T → VM T α) : Proc (Msg T) (Out α × Option (VState T)) :=
  Proc.bind (voleCreate E.aes bits optimal P seed (some E.c) defaultSec) fun
    | .ok o => (body { E with sec := o.sec } (VState.new (MPFSS.State.new o.mpfss.hasher) junk)).bind (fun r => .ret (r.1, some r.2))
    | .err c m => .ret (.err c m, none)
    | .throws m => .ret (.throws m, none)
    | .ub w => .ret (.ub w, none)
    | .diverge => .ret (.diverge, none)

/-- What a party has at the end of an experiment (the functions discard it; experiments.cpp:96, 98, 126, 128,
    153, 155). -/
inductive Result (T : Type)
  | sender (r : SRes T)
  | receiver (r : RRes T)
  | shares (v : List T)

/-- The calls in `RunVOLE` (experiments.cpp:88-99). The party with id 0, which has the lower id, is the sender. The
    measurements are left out. -/
def voleCalls (P : Party) (size : Int) (E : Env T) : VM T (Result T) := do
  VM.run (sync P E.c)
  if P.lower then do
    let r ← runSender E size
    pure (.sender r)
  else do
    let r ← runReceiver E size
    pure (.receiver r)

/-- `RunVOLE` (experiments.cpp:82-108). -/
def runVOLE (bits : Sec → Nat → Nat → Nat → Bool) (optimal : Sec → Nat → Nat → Int) (P : Party) (seed : Block) (E : Env T) (junk : T)
    (size : Int) : PM (Msg T) (Result T) :=
  (withVOLE bits optimal P seed E junk (voleCalls P size)).bind fun r => .ret r.1

/-- `std::iota` (experiments.cpp:117). -/
def iota (start : T) : Nat → List T
  | 0 => []
  | n + 1 => start :: iota (start + 1) n

/-- `RunGilboa` (experiments.cpp:110-138). `T(42)` and `T(23)` are `y` and `x`. A vector of negative size throws. -/
def runGilboa (P : Party) (c : Chans) (m0 : Nat → Block) (rnd : Nat → List T) (y x : T) (size : Int) : PM (Msg T) (Result T) := do
  let sec ← gilboaCreate P (some c) defaultSec
  if size < 0 then PM.lift (.throws "std::length_error") else
  let input := iota y size.toNat
  sync P c
  if P.lower then do
    let r ← Gilboa.runVectorProvider' c sec m0 rnd input
    pure (.shares r)
  else do
    let r ← Gilboa.runValueProvider' c sec x size
    pure (.shares r)

/-- `RunSPFSS` (experiments.cpp:140-165). -/
def runSPFSS (aes : Cipher) (fl : Nat → Nat → Nat) (P : Party) (c : Chans) (key seed : Nat → Block) (size : Int) : PM (Msg T) (Result T) := do
  let sec ← spfssCreate P (some c) defaultSec
  sync P c
  if P.lower then do
    let r ← SPFSS.runIndexProvider aes fl c 0 0 size
    pure (.shares r)
  else do
    let r ← SPFSS.runValueProvider aes fl c sec key seed 0 size
    pure (.shares r)

/-- `RunExperiment` (experiments.cpp:167-194), without the measurements and the number of threads. -/
def runExperiment (bits : Sec → Nat → Nat → Nat → Bool) (optimal : Sec → Nat → Nat → Int) (P : Party) (seed : Block) (E : Env T) (junk y x : T)
    (protocol : String) (size : Int) : PM (Msg T) (Result T) :=
  if protocol = "VOLE" then runVOLE bits optimal P seed E junk size
  else if protocol = "Gilboa" then runGilboa P E.c (E.rand 0).m0 (E.rand 0).rnd y x size
  else if protocol = "SPFSS" then runSPFSS E.aes E.fl P E.c (E.rand 0).key (E.rand 0).seed size
  else PM.lift (.err .invalidArgument "Unknown protocol")

/-- The sizes of the experiments (experiments.cpp:201-204, 268-271). -/
def sizes : List Int := (List.range 8).map fun i => 2 ^ (10 + 2 * i)

/-! ### Benchmarks -/

/-- `chan->send(b); chan->flush()` for a `bool` (distributed_vector_ole_benchmark.cpp:289-290, 294-295;
    spfss_known_index_benchmark.cpp:56-57, 62-63; scalar_vector_gilboa_product_benchmark.cpp:55-56, 60-61). -/
def tell (c : Chans) (b : Bool) : PM (Msg T) Unit := PM.send c.main (.bytes [if b then 1 else 0])

/-- Decode a `bool` (boost serialisation, library; distributed_vector_ole_benchmark.cpp:264, 268). -/
def unFlag : Msg T → Out Bool
  | .bytes [b] => .ok (decide (b ≠ 0))
  | .closed => .throws "connection closed"
  | _ => .ub "message of wrong type"

/-- `chan->recv(keep_running)` (distributed_vector_ole_benchmark.cpp:264, 268). -/
def hear (c : Chans) : PM (Msg T) Bool := do
  let m ← PM.recv c.main
  PM.lift (unFlag m)

/-- The loop `for (auto _ : state)` of the main thread and the last message (distributed_vector_ole_benchmark.cpp:288-295;
    spfss_known_index_benchmark.cpp:55-63; scalar_vector_gilboa_product_benchmark.cpp:54-61) for `n` iterations,
    numbered from `i`. `step` gets the number of the iteration and the previous result. Returns the
    results of all iterations (the benchmarks discard them). -/
def drive {m : Type → Type} [Monad m] {α : Type} (tell : Bool → m Unit) (step : Nat → α → m α) : (n i : Nat) → α → m (List α)
  | 0, _, _ => do
    tell false
    pure []
  | n + 1, i, prev => do
    tell true
    let x ← step i prev
    let rest ← drive tell step n (i + 1) x
    pure (x :: rest)

/-- The loop `do ... while (keep_running)` of the other thread (distributed_vector_ole_benchmark.cpp:265-269;
    spfss_known_index_benchmark.cpp:42-46; scalar_vector_gilboa_product_benchmark.cpp:42-47). After `fuel`
    iterations it counts as divergent (`lost`). -/
def serve {m : Type → Type} [Monad m] {α : Type} (hear : m Bool) (lost : m (List α)) (step : Nat → α → m α) : (fuel i : Nat) → α → m (List α)
  | 0, _, _ => lost
  | fuel + 1, i, prev => do
    let x ← step i prev
    let b ← hear
    if b then do
      let rest ← serve hear lost step fuel (i + 1) x
      pure (x :: rest)
    else pure [x]

/-- The main thread of `BM_Run` (distributed_vector_ole_benchmark.cpp:274-296): the calls after `Create`, `n`
    iterations. `none` stands for "no previous result". -/
def runMain (P : Party) (length : Int) (n : Nat) (E : Env T) : VM T (List (Option (SRes T))) := do
  precomputeSender E length
  VM.run (sync P E.c)
  drive (fun b => VM.run (tell E.c b)) (fun _ _ => do
    let r ← runSender E length
    pure (some r)) n 0 none

/-- The other thread of `BM_Run` (distributed_vector_ole_benchmark.cpp:254-269): the calls after `Create`. -/
def runThread (P : Party) (length : Int) (E : Env T) : VM T (List (Option (RRes T))) := do
  precomputeReceiver' E length
  VM.run (sync P E.c)
  let _ ← VM.run (hear E.c)
  serve (VM.run (hear E.c)) (VM.lift .diverge) (fun _ _ => do
    let r ← runReceiver E length
    pure (some r)) E.fuel 0 none

/-- The main thread of `BM_Precompute` in one iteration (distributed_vector_ole_benchmark.cpp:100-102): the calls
    after `Create`. -/
def precomputeMain (P : Party) (length : Int) (E : Env T) : VM T Unit := do
  VM.run (sync P E.c)
  precomputeReceiver' E length

/-- The other thread of `BM_Precompute` in one iteration (distributed_vector_ole_benchmark.cpp:90-91): the calls
    after `Create`. -/
def precomputeThread (P : Party) (length : Int) (E : Env T) : VM T Unit := do
  VM.run (sync P E.c)
  precomputeSender E length

/-- One iteration of `BM_Precompute` (distributed_vector_ole_benchmark.cpp:81-108), one of the threads; only the
    status counts. -/
def precomputeOnce (bits : Sec → Nat → Nat → Nat → Bool) (optimal : Sec → Nat → Nat → Int) (P : Party) (seed : Block) (E : Env T) (junk : T)
    (calls : Env T → VM T Unit) : PM (Msg T) Unit :=
  (withVOLE bits optimal P seed E junk calls).bind fun r => .ret r.1

/-- The loop of `BM_Precompute` (distributed_vector_ole_benchmark.cpp:81-108): iteration `i` is `once i`. Since each
    iteration ends with `thread1.join()`, the successive threads are like one. -/
def repeatAll {α : Type} (once : Nat → PM (Msg T) α) : Nat → PM (Msg T) (List α)
  | 0 => pure []
  | n + 1 => do
    let l ← repeatAll once n
    let x ← once n
    pure (l ++ [x])

/-- The main thread of the benchmark of the SPFSS (spfss_known_index_benchmark.cpp:50-64), `n` iterations. `T(42)` is
    `y`. The status of the calls is ignored there; here an error ends the program. -/
def spfssMain (aes : Cipher) (fl : Nat → Nat → Nat) (P : Party) (c : Chans) (y : T) (length n : Nat) : PM (Msg T) (List (List T)) := do
  let _ ← spfssCreate P (some c) defaultSec
  let x ← SPFSS.runIndexProviderSpan aes fl c y 0 (List.replicate length 0)
  let rest ← drive (tell c) (fun i prev => do
    let r ← SPFSS.runIndexProviderSpan aes fl c y (i % length : Nat) prev
    if length = 0 then PM.lift (.ub "division by zero") else pure r) n 0 x
  pure (x :: rest)

/-- The other thread of the benchmark of the SPFSS (spfss_known_index_benchmark.cpp:36-47). `T(23)` is `x`;
    iteration `i` uses the randomness `key i` and `seed i`. -/
def spfssThread (aes : Cipher) (fl : Nat → Nat → Nat) (P : Party) (c : Chans) (key seed : Nat → Nat → Block) (x : T) (length fuel : Nat) :
    PM (Msg T) (List (List T)) := do
  let sec ← spfssCreate P (some c) defaultSec
  serve (hear c) (PM.lift .diverge) (fun i prev => SPFSS.runValueProviderSpan aes fl c sec (key i) (seed i) x prev) fuel 0 (List.replicate length 0)

/-- The main thread of the benchmark of the Gilboa product (scalar_vector_gilboa_product_benchmark.cpp:50-62), `n`
    iterations. `T(23)` is `y`; the first call uses the randomness `m0 0` and `rnd 0`, iteration `i` the next. -/
def gilboaMain (P : Party) (c : Chans) (m0 : Nat → Nat → Block) (rnd : Nat → Nat → List T) (y : T) (length n : Nat) : PM (Msg T) (List (List T)) := do
  let sec ← gilboaCreate P (some c) defaultSec
  let x ← Gilboa.runVectorProvider' c sec (m0 0) (rnd 0) (List.replicate length y)
  let rest ← drive (tell c) (fun i _ => Gilboa.runVectorProvider' c sec (m0 (i + 1)) (rnd (i + 1)) (List.replicate length y)) n 0 x
  pure (x :: rest)

/-- The other thread of the benchmark of the Gilboa product (scalar_vector_gilboa_product_benchmark.cpp:37-48).
    `T(23)` is `x`. -/
def gilboaThread (P : Party) (c : Chans) (x : T) (length fuel : Nat) : PM (Msg T) (List (List T)) := do
  let sec ← gilboaCreate P (some c) defaultSec
  serve (hear c) (PM.lift .diverge) (fun _ _ => Gilboa.runValueProvider' c sec x length) fuel 0 []

/-- The main thread of the benchmark of the MPFSS (mpfss_known_indices_benchmark.cpp:52-96): `Create` (line 52) comes before
    the start of the other thread (line 66), which is a message on a channel of its own, `start`. What
    comes after it, with the object, is `rest`. -/
def mpfssMain {α : Type} (aes : Cipher) (bits : Sec → Nat → Nat → Nat → Bool) (optimal : Sec → Nat → Nat → Int) (P : Party) (seed : Block) (c : Chans)
    (start : Nat) (rest : Mpfss → PM (Msg T) α) : PM (Msg T) α := do
  let o ← mpfssCreate aes bits optimal P seed (some c) defaultSec
  PM.send start .token
  rest o

/-- The other thread of the benchmark of the MPFSS (mpfss_known_indices_benchmark.cpp:66-77), from its start; its
    work is `body`. -/
def mpfssThread {α : Type} (start : Nat) (body : PM (Msg T) α) : PM (Msg T) α := do
  let _ ← PM.recv start
  body

end DVO.Clients
