import Verif.Model.Mem
/-!
# Link lists as plain lists

What the operations on link lists are meant to do, without memory: a vertex has a level and, for each level, a list of links.
-/
namespace Fave.Mem

/-- the link lists of all vertices -/
abbrev Lists := Nat → Option (Nat × List (List Nat))

/-- one vertex replaced -/
def Lists.put (t : Lists) (i level : Nat) (ls : List (List Nat)) : Lists := fun j => if j = i then some (level, ls) else t j

/-- what an operation (neighbor_connections.go:102-218, insert.go:90-94, 233-243, index.go:610-618, delete.go:354, 371, 381-383) is meant to do -/
def Lists.run (t : Lists) : Op → Option Lists
  | .create i level _ => some (t.put i level (List.replicate (level + 1) []))
  | .load i level lists _ => some (t.put i level lists)
  | .set i level l =>
    match t i with
    | none => none
    | some (lv, ls) => if level < ls.length then some (t.put i lv (ls.set level l)) else none
  | .connect i level x max sel =>
    match t i with
    | none => none
    | some (lv, ls) =>
      let lv' := if lv < level then level else lv
      let ls' := if lv < level then (ls ++ List.replicate (level + 1) []).take (level + 1) else ls
      match ls'[level]? with
      | none => none
      | some old => some (t.put i lv' (ls'.set level (if old.length < max then old ++ [x] else sel old)))
  | .clear i =>
    match t i with
    | none => none
    | some (lv, ls) => some (t.put i lv (ls.map (fun _ => [])))
  | .nils i level =>
    match t i with
    | none => none
    | some (lv, _) => some (t.put i lv (List.replicate (level + 1) []))
  | .done _ => some t

/-- one after the other -/
def Lists.runs : Lists → List Op → Option Lists
  | t, [] => some t
  | t, o :: os =>
    match t.run o with
    | none => none
    | some t' => Lists.runs t' os

/-- the lists a memory state stands for -/
def St.lists (s : St) : Lists := fun i => (s.verts i).map (fun v => (v.level, v.conns.map s.heap.read))

end Fave.Mem
