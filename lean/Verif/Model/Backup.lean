import Verif.Model.Keeper
/-!
# Pausing background work, and listing the files for a backup

Model of pkg/hnsw/backup.go with `Start` and `Shutdown` of pkg/hnsw/commit_logger.go.  A cycle (package cyclemanager, a dependency) is
running or not; stopping it succeeds, or fails and leaves it running.  The two goroutines of each stopping deal with different cycles,
so that their order does not matter; they are modelled one after the other.
-/
namespace Fave
namespace Log

/-- the three cycles of background work — commit_logger.go:268-269, index.go:111: is each of them running? -/
structure Cycles where
  switch : Bool
  condense : Bool
  cleanup : Bool
  deriving DecidableEq, Repr

/-- what happens at an attempt to stop: which cycles cannot be stopped, and whether the context has expired (`ctx.Err() != nil`) -/
structure Attempt where
  switch : Bool
  condense : Bool
  cleanup : Bool
  expired : Bool
  deriving DecidableEq, Repr

/-- `StopAndWait` of a cycle (cyclemanager, a dependency; used at commit_logger.go:418,426, backup.go:43, index.go:635,657): whether it
runs afterwards, and whether there was an error -/
def stopCycle (running fails : Bool) : Bool × Bool := if running && fails then (true, true) else (false, false)

/-- `hnswCommitLogger.Start` — commit_logger.go:404-407 -/
def Cycles.startLog (c : Cycles) : Cycles := ⟨true, true, c.cleanup⟩

/-- `hnswCommitLogger.Shutdown` — commit_logger.go:412-454 -/
def Cycles.shutdownLog (c : Cycles) (o : Attempt) : Cycles × Bool :=
  let s := stopCycle c.switch o.switch
  let n := stopCycle c.condense o.condense
  if s.2 && n.2 then (⟨s.1, n.1, c.cleanup⟩, true)
  else if s.2 then (⟨s.1, true, c.cleanup⟩, true)
  else if n.2 then (⟨true, n.1, c.cleanup⟩, true)
  else (⟨s.1, n.1, c.cleanup⟩, false)

/-- `PauseMaintenance` — backup.go:30-72.  If the commit log cannot be shut down, the error wrapped is that of the context
(backup.go:36), and `errors.Wrap(nil, …)` is nil. -/
def Cycles.pause (c : Cycles) (o : Attempt) : Cycles × Bool :=
  let l := c.shutdownLog o
  let logErr := l.2 && o.expired
  let t := stopCycle c.cleanup o.cleanup
  let c' : Cycles := ⟨l.1.switch, l.1.condense, t.1⟩
  if logErr && t.2 then (c', true)
  else if logErr then (⟨c'.switch, c'.condense, true⟩, true)
  else if t.2 then (c'.startLog, true)
  else (c', false)

/-- `ResumeMaintenance` — backup.go:146-150: always without error -/
def Cycles.resume (_ : Cycles) : Cycles × Bool := (⟨true, true, true⟩, false)

/-- the part of `Shutdown` of the index that stops cycles — index.go:656-664 -/
def Cycles.shutdown (c : Cycles) (o : Attempt) : Cycles × Bool :=
  let t := stopCycle c.cleanup o.cleanup
  if t.2 then (⟨c.switch, c.condense, t.1⟩, true)
  else (⟨c.switch, c.condense, t.1⟩ : Cycles).shutdownLog o

/-- `MaintenanceInProgress` — commit_logger.go:609-611 -/
def Cycles.inProgress (c : Cycles) : Bool := c.condense && c.switch

/-- `ListFiles` — backup.go:90-142 with `getCurrentCommitLogFileName` — commit_logger.go:170-204: the names of files that are not empty,
without the newest log (in an order that depends on a map); and the directory afterwards, from which unfinished combined logs have been
removed.  `none`: only temporary files are there, and `files[0]` fails. -/
def Dir.listFiles (d : Dir) : Option (List FName × Dir) :=
  if d.names = [] then some ([], d)
  else match d.sweep.listing.getLast? with
    | none => none
    | some c => some ((d.names.filter (fun n => d.content n ≠ [])).filter (fun n => n ≠ c), d.sweep)

end Log
end Fave
