import Verif.Model.Basic
/-!
# Unique ids (`src/util/unique_id.rs`)

The counter is shared by all invocations of the macros in one compiler process, on any number of threads.
`fetch_add` with `SeqCst` is atomic, so that an execution of the process performs the draws in some total order: a
*schedule*, the list of the invocations in the order in which they draw.
-/

namespace Verif

/-- The id of the `n`-th draw of the process, `src/util/unique_id.rs:6-11`: the old value of `SEED_SEQ` (line 3), an `AtomicU64`, which
starts with 0 and wraps around. -/
def nthId (n : Nat) : Nat := n % 2 ^ 64

/-- The ids invocation `i` gets in a schedule, in the order in which it draws them; `n` draws have been made before. -/
def drawsFrom {ι : Type} [DecidableEq ι] (i : ι) : Nat → List ι → List Nat
  | _, [] => []
  | n, j :: sched => if j = i then nthId n :: drawsFrom i (n + 1) sched else drawsFrom i (n + 1) sched

/-- The ids invocation `i` gets in a schedule of the whole process. -/
def draws {ι : Type} [DecidableEq ι] (sched : List ι) (i : ι) : List Nat := drawsFrom i 0 sched

/-- The source of ids of invocation `i`. The default value is never used if the schedule contains all draws of `i`. -/
def stream {ι : Type} [DecidableEq ι] (sched : List ι) (i : ι) (k : Nat) : Nat := (draws sched i)[k]?.getD 0

end Verif
