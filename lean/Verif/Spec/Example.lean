import Verif.Model.Knn
/-!
# Small concrete collections used to show that hypotheses can be met
-/
namespace Fave.Ex

/-- numbers on a line, distance `|a - b|` -/
def line : Metric Int Int := ⟨fun a b => some ((a - b).natAbs : Int), fun _ => 1⟩

def vtx (id : Nat) (vec : Int) (level : Nat) (conns : List (List Nat)) : Vertex Int :=
  { id := id, level := level, conns := conns, maint := false, vec := vec, committed := true }

/-- five vectors with a cycle, a self link (3), a duplicate link (0→1 twice), a dangling link (4→77) and a deletion mark (2) -/
def verts : List (Vertex Int) :=
  [vtx 0 10 1 [[1, 2, 1], [3]], vtx 1 12 0 [[0, 2]], vtx 2 17 0 [[1, 3]], vtx 3 20 1 [[3, 4, 2], [0]], vtx 4 (-5) 0 [[77, 0]]]

def graph : Graph Int Int :=
  { get := fun id => verts.find? (fun v => v.id == id), keys := verts.map Vertex.id, metric := line, norm := fun v => v,
    tomb := fun id => id == 2, cacheSize := 25000, visitedSize := 8, entry := 0, maxLayer := 1 }

end Fave.Ex
