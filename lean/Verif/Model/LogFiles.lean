import Verif.Model.Condense
/-!
# The files of a commit log

Model of the file handling in pkg/hnsw/commit_logger.go (listing), commit_log_combiner.go, corrupt_commit_logs_fixer.go and of
the file operations of condensor.go.  A directory is a list of names with a content for each.  The order of the names stands for
the (unspecified) order in which an unstable sort leaves files with the same time stamp.  Disk operations that fail are modelled
only where a definition says so.
-/
namespace Fave
namespace Log

/-- what follows the time stamp in a file name: nothing, `.condensed` (condensor.go:45), `.combined.tmp`
(commit_log_combiner.go:120), `.scratch.tmp` (condensor_mmap.go; commit_logger.go:206) -/
inductive Kind where
  | plain | condensed | combining | scratch
  deriving DecidableEq, Repr

/-- name of a file: the time stamp (`fmt.Sprintf("%d", time.Now().Unix())`, commit_logger.go:108,515) and the suffix.
Names that are not of this form make the listing fail (commit_logger.go:141-156) and are not modelled. -/
structure FName where
  ts : Nat
  kind : Kind
  deriving DecidableEq, Repr

/-- a directory -/
structure Dir where
  names : List FName
  content : FName → Bytes

/-- a file created or overwritten: `os.Create`, `os.Rename` — commit_log_combiner.go:146, 191 -/
def Dir.put (d : Dir) (n : FName) (b : Bytes) : Dir :=
  ⟨if n ∈ d.names then d.names else d.names ++ [n], fun m => if m = n then b else d.content m⟩

/-- `os.Remove` — commit_log_combiner.go:196, commit_logger.go:231, condensor.go:106 -/
def Dir.erase (d : Dir) (n : FName) : Dir := ⟨d.names.filter (fun m => m ≠ n), d.content⟩

/-- files that take part in a replay: neither `.scratch.tmp` (commit_logger.go:206-219) nor `.combined.tmp`
(commit_logger.go:221-245) -/
def FName.visible (n : FName) : Bool := n.kind = .plain || n.kind = .condensed

/-- `removeTmpCombiningFiles` on disk — commit_logger.go:221-245 -/
def Dir.sweep (d : Dir) : Dir := ⟨d.names.filter (fun n => n.kind ≠ .combining), d.content⟩

/-- insertion by time stamp: `sort.Slice` with the comparison of commit_logger.go:141-156 -/
def insertTs (n : FName) : List FName → List FName
  | [] => [n]
  | m :: l => if n.ts ≤ m.ts then n :: m :: l else m :: insertTs n l

/-- `getCommitFileNames` — commit_logger.go:121-166: sorted by time stamp, with `.condensed` removed for the comparison
(commit_logger.go:247-249) -/
def Dir.listing (d : Dir) : List FName := (d.names.filter FName.visible).foldr insertTs []

/-- the original of a condensed log, and the result of combining: the name without `.condensed` —
corrupt_commit_logs_fixer.go:58, commit_log_combiner.go:120,124 -/
def FName.base (n : FName) : FName := ⟨n.ts, .plain⟩

/-- the condensed form of a log — condensor.go:45 -/
def FName.cond (n : FName) : FName := ⟨n.ts, .condensed⟩

/-- the temporary file of the combiner — commit_log_combiner.go:120 -/
def FName.tmp (n : FName) : FName := ⟨n.ts, .combining⟩

/-- `CorruptCommitLogFixer.Do` — corrupt_commit_logs_fixer.go:43-70: the names kept (the others are removed from disk) -/
def fix (names : List FName) : List FName :=
  names.filter fun n => !(decide (n.kind = .condensed) && names.contains n.base)

/-- the bytes replayed at start-up: the files in their order after clean-up — startup.go:54-72 (commented out in FaVe) -/
def Dir.replayed (d : Dir) : Bytes := ((fix d.listing).map d.content).flatten

/-- the loop over the files at start-up — startup.go:69-101 (commented out in FaVe): a file that ends abruptly is accepted up to
there, any other error ends the start -/
def restoreFiles (maxLen : Nat) : LogState → List Bytes → LogState × Option RErr
  | st, [] => (st, none)
  | st, f :: rest =>
    match replay maxLen false st f with
    | (st', _, none) => restoreFiles maxLen st' rest
    | (st', _, some .eof) => restoreFiles maxLen st' rest
    | (st', _, some .unexpected) => restoreFiles maxLen st' rest
    | (st', _, some e) => (st', some e)

/-- `restoreFromDisk` — startup.go:50-101 (commented out in FaVe) -/
def Dir.restore (maxLen : Nat) (d : Dir) : LogState × Option RErr := restoreFiles maxLen fresh ((fix d.listing).map d.content)

/-- `combineFirstMatch` — commit_log_combiner.go:65-111: the first two neighbouring condensed logs that are small enough -/
def firstMatch (size : FName → Nat) (threshold : Nat) : List FName → Option (FName × FName)
  | [] => none
  | [_] => none
  | a :: b :: rest =>
    if a.kind ≠ .condensed then firstMatch size threshold (b :: rest)
    else if b.kind ≠ .condensed then firstMatch size threshold (b :: rest)
    else if size a > threshold then firstMatch size threshold (b :: rest)
    else if size a + size b > threshold then firstMatch size threshold (b :: rest)
    else some (a, b)

/-- the merged content — commit_log_combiner.go:163-173 -/
def Dir.merged (d : Dir) (a b : FName) : Bytes := d.content a ++ d.content b

/-- after `mergeFiles` and the renaming — commit_log_combiner.go:126, 191 -/
def Dir.renamed (d : Dir) (a b : FName) : Dir := (d.erase a.tmp).put a.base (d.merged a b)

/-- `combine` — commit_log_combiner.go:113-143, 183-203 -/
def Dir.combine (d : Dir) (a b : FName) : Dir := ((d.renamed a b).erase a).erase b

/-- the disk when `combine` is interrupted: while copying, after the renaming, after removing the first source —
commit_log_combiner.go:126-130, 163-173, 191-200 -/
inductive CombineCrash (d : Dir) (a b : FName) : Dir → Prop where
  | before : CombineCrash d a b d
  | copying (p : Bytes) : p <+: d.merged a b → CombineCrash d a b (d.put a.tmp p)
  | renamed : CombineCrash d a b (d.renamed a b)
  | firstRemoved : CombineCrash d a b ((d.renamed a b).erase a)
  | done : CombineCrash d a b (d.combine a b)

/-- `CommitLogCombiner.Do` — commit_log_combiner.go:41-63; every round removes a file, so `fuel` above the number of files never
runs out. -/
def combineAll (threshold : Nat) : Nat → Dir → Dir
  | 0, d => d
  | fuel + 1, d =>
    let d := d.sweep
    match firstMatch (fun n => (d.content n).length) threshold d.listing with
    | none => d
    | some (a, b) => combineAll threshold fuel (d.combine a b)

/-- the disk while `MemoryCondensor.Do` condenses the log `n` to the bytes `c`: the new file is opened for appending
(condensor.go:45-46), so what it held before stays; `k` is how many bytes have reached the disk; then the original is removed
(condensor.go:106) -/
inductive CondenseCrash (d : Dir) (n : FName) (c : Bytes) : Dir → Prop where
  | before : CondenseCrash d n c d
  | writing (k : Nat) :
      CondenseCrash d n c (d.put n.cond ((if n.cond ∈ d.names then d.content n.cond else []) ++ c.take k))
  | done : CondenseCrash d n c
      ((d.put n.cond ((if n.cond ∈ d.names then d.content n.cond else []) ++ c)).erase n)

end Log
end Fave
