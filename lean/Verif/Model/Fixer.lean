import Verif.Model.LogFiles
/-!
# The clean-up of commit logs at start-up, on file names as text

Model of pkg/hnsw/corrupt_commit_logs_fixer.go.  A name is a list of characters.
-/
namespace Fave
namespace Log

/-- the suffix — corrupt_commit_logs_fixer.go:48, 56 -/
def condensedSuffix : List Char := ['.', 'c', 'o', 'n', 'd', 'e', 'n', 's', 'e', 'd']

/-- `strings.HasSuffix` (Go standard library) — used at corrupt_commit_logs_fixer.go:48 -/
def hasSuffix (s suffix : List Char) : Bool := suffix.isSuffixOf s

/-- `strings.TrimSuffix` (Go standard library) — used at corrupt_commit_logs_fixer.go:56 -/
def trimSuffix (s suffix : List Char) : List Char :=
  if hasSuffix s suffix then s.take (s.length - suffix.length) else s

/-- what `Do` leaves: the returned names, the names removed from disk, and whether an error is returned -/
structure FixResult where
  out : List (List Char)
  removed : List (List Char)
  failed : Bool
  deriving DecidableEq, Repr

/-- the loop of `Do` — corrupt_commit_logs_fixer.go:46-67.  `all` is the whole list (`listContains`, :72-82), `kept` what has been
written to `out` so far, `gone` the files removed so far, `removable` says whether `os.Remove` succeeds.  On failure `out` is
returned with its full length: the unused entries are empty names (:44, :64). -/
def fixLoop (all : List (List Char)) (removable : List Char → Bool) (kept gone : List (List Char)) :
    List (List Char) → FixResult
  | [] => ⟨kept, gone, false⟩
  | n :: rest =>
    if !hasSuffix n condensedSuffix then fixLoop all removable (kept ++ [n]) gone rest
    else if !all.contains (trimSuffix n condensedSuffix) then fixLoop all removable (kept ++ [n]) gone rest
    else if removable n then fixLoop all removable kept (gone ++ [n]) rest
    else ⟨kept ++ List.replicate (all.length - kept.length) [], gone, true⟩

/-- `CorruptCommitLogFixer.Do` — corrupt_commit_logs_fixer.go:43-70 -/
def fixNames (removable : List Char → Bool) (names : List (List Char)) : FixResult := fixLoop names removable [] [] names

/-- the suffix of a kind of file — condensor.go:45, commit_log_combiner.go:120, commit_logger.go:206 -/
def Kind.suffix : Kind → List Char
  | .plain => []
  | .condensed => condensedSuffix
  | .combining => ['.', 'c', 'o', 'm', 'b', 'i', 'n', 'e', 'd', '.', 't', 'm', 'p']
  | .scratch => ['.', 's', 'c', 'r', 'a', 't', 'c', 'h', '.', 't', 'm', 'p']

/-- the full name of a file in the directory `dir` — commit_logger.go:35-41, 108 (`%d`) -/
def FName.render (dir : List Char) (n : FName) : List Char := dir ++ (Nat.toDigits 10 n.ts ++ n.kind.suffix)

end Log
end Fave
