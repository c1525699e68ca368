import Verif.Model.LogFiles
import Verif.Spec.CommitLog
/-!
# A commit log in use

Model of pkg/hnsw/commit_logger.go as a machine: operations are written to a buffer in front of the current file, the current file is
switched, older files are condensed and combined in the background, and the process may stop at any moment and start again.  The
cycles of the background work (package cyclemanager, a dependency) decide only when these steps are taken, so that any order of steps
is possible.  Disk operations that fail are not part of this machine (C29 and C28 show what a failed condensing leads to).
-/
namespace Fave
namespace Log

/-- limits of a commit log: `maxSizeIndividual`, the combining threshold (commit_logger.go:264-265, 572-579) and the longest slice the
runtime allocates -/
structure Limits where
  maxSize : Nat
  threshold : Nat
  maxLen : Nat

/-- `hnswCommitLogger` — commit_logger.go:255-271: the directory, the file the logger writes to, the bytes in the buffer of the logger
(package commitlog, a dependency: a buffered writer), and the clock in seconds -/
structure Keeper where
  dir : Dir
  cur : FName
  buf : Bytes
  now : Nat

/-- `os.OpenFile` with `O_APPEND|O_CREATE` — commit_logger.go:111-112, 533-534: an existing file keeps its content -/
def Dir.touch (d : Dir) (n : FName) : Dir := if n ∈ d.names then d else d.put n []

/-- `getLatestCommitFileOrCreate` — commit_logger.go:94-118 with `getCurrentCommitLogFileName` — commit_logger.go:170-204: the newest
file, or a new one named after the time if the directory is empty.  `none`: only temporary files are there, and `files[0]` fails. -/
def Dir.openLatest (d : Dir) (now : Nat) : Option Keeper :=
  if d.names = [] then some ⟨d.touch ⟨now, .plain⟩, ⟨now, .plain⟩, [], now⟩
  else match d.sweep.listing.getLast? with
    | none => none
    | some n => some ⟨d.sweep, n, [], now⟩

/-- bytes reach the current file; if it has been removed meanwhile, they go nowhere (simplified: a new file that has got the same name
meanwhile is not told apart) -/
def Keeper.push (k : Keeper) (b : Bytes) : Dir := if k.cur ∈ k.dir.names then k.dir.put k.cur (k.dir.content k.cur ++ b) else k.dir

/-- the buffer writes out its first `n` bytes — when it is full; bufiowriter.go:100-119 is the same code -/
def Keeper.spill (k : Keeper) (n : Nat) : Keeper := ⟨k.push (k.buf.take n), k.cur, k.buf.drop n, k.now⟩

/-- `Flush` — commit_logger.go:602-607 -/
def Keeper.flush (k : Keeper) : Keeper := ⟨k.push k.buf, k.cur, [], k.now⟩

/-- one operation is written — commit_logger.go:324-402 -/
def Keeper.write (k : Keeper) (op : LogOp) : Keeper := ⟨k.dir, k.cur, k.buf ++ op.encode, k.now⟩

/-- `switchCommitLogs` — commit_logger.go:492-542: nothing if the file is small and the switch is not forced; otherwise the old file is
closed (and flushed), and a file named after the time in seconds is opened for appending -/
def Keeper.switch (L : Limits) (k : Keeper) (force : Bool) : Keeper :=
  if (k.dir.content k.cur).length ≤ L.maxSize ∧ force = false then k
  else ⟨k.flush.dir.touch ⟨k.now, .plain⟩, ⟨k.now, .plain⟩, [], k.now⟩

/-- the log to be condensed — commit_logger.go:550-569: the first one that is not condensed, the last one excluded -/
def Dir.candidate (d : Dir) : Option FName := d.listing.dropLast.find? fun n => n.kind = .plain

/-- the condensed file: opened for appending — condensor.go:45-46 -/
def Dir.condensedWith (d : Dir) (n : FName) (c : Bytes) : Dir :=
  d.put n.cond ((if n.cond ∈ d.names then d.content n.cond else []) ++ c)

/-- `condenseOldLogs` — commit_logger.go:544-570, condensor.go:32-111; `order` is the iteration order over the map of deletion marks -/
def Dir.condenseOne (maxLen : Nat) (order : LogState → List Nat) (d : Dir) : Dir :=
  match d.sweep.candidate with
  | none => d.sweep
  | some n =>
    match condense maxLen order (d.sweep.content n) with
    | .error _ => d.sweep
    | .ok c => (d.sweep.condensedWith n c).erase n

/-- one round of `CommitLogCombiner.Do` — commit_log_combiner.go:41-111 -/
def Dir.combineOne (threshold : Nat) (d : Dir) : Dir :=
  match firstMatch (fun n => (d.sweep.content n).length) threshold d.sweep.listing with
  | none => d.sweep
  | some (a, b) => d.sweep.combine a b

/-- where the process stops: between the steps; while condensing, when `n` bytes are written; while combining, when `n` bytes are copied,
after the renaming, after removing the first source -/
inductive Crash where
  | idle
  | condensing (n : Nat) (order : LogState → List Nat)
  | copying (n : Nat)
  | renamed
  | firstRemoved

/-- the disk when the process stops (`CondenseCrash`, `CombineCrash` of Model/LogFiles) -/
def Crash.disk (L : Limits) (d : Dir) : Crash → Dir
  | .idle => d
  | .condensing k order =>
    match d.sweep.candidate with
    | none => d.sweep
    | some n =>
      match condense L.maxLen order (d.sweep.content n) with
      | .error _ => d.sweep
      | .ok c => d.sweep.condensedWith n (c.take k)
  | .copying k =>
    match firstMatch (fun n => (d.sweep.content n).length) L.threshold d.sweep.listing with
    | none => d.sweep
    | some (a, b) => d.sweep.put a.tmp ((d.sweep.merged a b).take k)
  | .renamed =>
    match firstMatch (fun n => (d.sweep.content n).length) L.threshold d.sweep.listing with
    | none => d.sweep
    | some (a, b) => d.sweep.renamed a b
  | .firstRemoved =>
    match firstMatch (fun n => (d.sweep.content n).length) L.threshold d.sweep.listing with
    | none => d.sweep
    | some (a, b) => (d.sweep.renamed a b).erase a

/-- the loop over the files at start-up with what it does to them — startup.go:69-101 (commented out in FaVe): a file that ends
abruptly is cut to its valid length -/
def repairFiles (maxLen : Nat) : LogState → List FName → Dir → Dir × LogState × Option RErr
  | st, [], d => (d, st, none)
  | st, n :: ns, d =>
    match replay maxLen false st (d.content n) with
    | (st', _, none) => repairFiles maxLen st' ns d
    | (st', valid, some .eof) => repairFiles maxLen st' ns (d.put n ((d.content n).take valid))
    | (st', valid, some .unexpected) => repairFiles maxLen st' ns (d.put n ((d.content n).take valid))
    | (st', _, some e) => (d, st', some e)

/-- `restoreFromDisk` with what it does to the files — startup.go:50-101 (commented out in FaVe): unfinished combined files are removed,
then condensed logs whose original is there (corrupt_commit_logs_fixer.go:43-70), then files are read and cut -/
def Dir.start (maxLen : Nat) (d : Dir) : Dir × LogState × Option RErr :=
  repairFiles maxLen fresh (fix d.sweep.listing)
    ⟨d.sweep.names.filter (fun n => !(n.visible && !(fix d.sweep.listing).contains n)), d.sweep.content⟩

/-- what can happen.  `clock` is the time passing (or being set back). -/
inductive KEv where
  | write (op : LogOp)
  | spill (n : Nat)
  | flush
  | clock (t : Nat)
  | switch (force : Bool)
  | condense (order : LogState → List Nat)
  | combine
  | crash (c : Crash)

/-- one step; after a crash the process starts again — startup.go:27-37: the files are read, then the commit log is opened.  `none`: it
does not start. -/
def Keeper.step (L : Limits) (k : Keeper) : KEv → Option Keeper
  | .write op => some (k.write op)
  | .spill n => some (k.spill n)
  | .flush => some k.flush
  | .clock t => some ⟨k.dir, k.cur, k.buf, t⟩
  | .switch force => some (k.switch L force)
  | .condense order => some ⟨k.dir.condenseOne L.maxLen order, k.cur, k.buf, k.now⟩
  | .combine => some ⟨k.dir.combineOne L.threshold, k.cur, k.buf, k.now⟩
  | .crash c =>
    match (c.disk L k.dir).start L.maxLen with
    | (_, _, some _) => none
    | (d, _, none) => d.openLatest k.now

/-- a sequence of steps -/
def Keeper.run (L : Limits) : Keeper → List KEv → Option Keeper
  | k, [] => some k
  | k, e :: es =>
    match k.step L e with
    | none => none
    | some k => k.run L es

/-- a new commit log in an empty directory — commit_logger.go:94-118 -/
def Keeper.new (now : Nat) : Keeper := ⟨Dir.touch ⟨[], fun _ => []⟩ ⟨now, .plain⟩, ⟨now, .plain⟩, [], now⟩

end Log
end Fave
