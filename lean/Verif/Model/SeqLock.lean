import Verif.Model.Counters

/-!
# Reading the kernel's page (`measureme/src/counters.rs:439-472`)

The page is shared with the kernel, which updates it while the reader runs.  The kernel's side is its documented protocol (the `perf_event_mmap_page`
documentation in `perf_event_open(2)` that `counters.rs:449-458` refers to): increment `lock`, change fields, increment `lock`.  Memory is
sequentially consistent (the code itself notes at 447-450 that plain reads may be undefined behaviour; that is not modelled).
-/

namespace Verif.Counters

open Verif

/-- The page at one moment; `seq` is how often the kernel has incremented `lock`, so it is odd while an update is going on. -/
structure MmapPage where
  seq : Nat
  fields : Nat → UInt64

/-- The 32-bit `lock` field. -/
def MmapPage.lock (p : MmapPage) : UInt32 := UInt32.ofNat p.seq

/-- One step of the kernel. -/
inductive KernelStep : MmapPage → MmapPage → Prop where
  /-- begin or end an update -/
  | bump (p) : KernelStep p ⟨p.seq + 1, p.fields⟩
  /-- change a field during an update -/
  | set (p i v) : p.seq % 2 = 1 → KernelStep p ⟨p.seq, fun j => if j = i then v else p.fields j⟩

/-- The page over time. -/
def KernelRun (mem : Nat → MmapPage) : Prop := ∀ n, mem (n + 1) = mem n ∨ KernelStep (mem n) (mem (n + 1))

/-- `measureme/src/counters.rs:454-470`, one iteration of the loop in `access_mmap_page_with_seqlock`; `clock j` is the time of the reader's `j`-th access to
the page, `reads` are the fields the closure reads, in order. -/
def attempt (mem : Nat → MmapPage) (clock : Nat → Nat) (reads : List Nat) (j : Nat) : Option (List UInt64) :=
  let seqLock := (mem (clock j)).lock
  let result := reads.mapIdx fun i field => (mem (clock (j + 1 + i))).fields field
  if (mem (clock (j + 1 + reads.length))).lock = seqLock then some result else none

/-- `measureme/src/counters.rs:443-472` `access_mmap_page_with_seqlock`: the loop, starting with access number `j`; the last argument but one is the number of
the first access of the iteration that returns. -/
inductive Access (mem : Nat → MmapPage) (clock : Nat → Nat) (reads : List Nat) : Nat → Nat → List UInt64 → Prop where
  | done {j r} : attempt mem clock reads j = some r → Access mem clock reads j j r
  | retry {j k r} : attempt mem clock reads j = none → Access mem clock reads (j + 2 + reads.length) k r → Access mem clock reads j k r

/-- The closure of `counters.rs:394-400` reads `version` (0), `compat_version` (1), the capability bits (2), `index` (3), `pmc_width` (4), the numbers being ours;
what `with_type_and_hw_id` uses of it (403-436). `cap_user_rdpmc` is bit 2 of the capability word (the kernel's ABI). -/
def perfPage (r : List UInt64) : PerfPage where
  capUserRdpmc := (r.getD 2 0).toNat.testBit 2
  index := (r.getD 3 0).toNat
  pmcWidth := (r.getD 4 0).toNat

/-- The fields the closure of `counters.rs:394-400` reads. -/
def creationReads : List Nat := [0, 1, 2, 3, 4]

end Verif.Counters
