import Verif.Model.Insert
/-!
# Vertices that cannot be written
-/
namespace Fave.Index
variable {V D : Type} [Dist D]

/-- `Fed P good s`: the state after any sequence of index operations in which every vector added satisfies `good`: additions under freely
chosen numbers with any outcome, flushes that run to their end or to the vertex that cannot be marshalled, or are cut short before by a
failing write or a crash (pkg/hnsw/insert.go:118-164), loads of the entry point (insert.go:181-199), restarts. -/
inductive Fed (P : Params V D) (good : V → Prop) : Index V → Prop where
  | init : Fed P good init
  | add {s} (vo : VecOracle V) (sched : Graph.Scheds D) (x : Nat) (vec : V) (level : Nat) :
      Fed P good s → good vec → Fed P good (add P vo sched s x vec level).1
  | flush {s} (order : List Nat) (n : Nat) : Fed P good s → Fed P good (flush P s order n).1
  | cut {s} (order : List Nat) (n : Nat) (ws : List (Write V)) :
      Fed P good s → ws <+: (flushUpToBad P (s.flushWrites order n)).1 → Fed P good (ws.foldl applyWrite s)
  | load {s} : Fed P good s → Fed P good s.loadEntry
  | unread {s} : Fed P good s → Fed P good { s with entry := 0 }
  | restart {s} : Fed P good s → Fed P good s.reopen

/-- the vertex `x` is in memory, has not been written, and cannot be marshalled — insert.go:129-132 -/
def Poisoned (P : Params V D) (x : Nat) (s : Index V) : Prop :=
  ∃ v, s.cache.get x = some v ∧ v.committed = false ∧ P.jsonOk v.vec = false

/-- what can happen to the index while the process lives and no vector is added under the number `x`; the keys of the cache, in whatever
order, include `x` -/
inductive Without (P : Params V D) (x : Nat) (s : Index V) : Index V → Prop where
  | refl : Without P x s s
  | add {t} (vo : VecOracle V) (sched : Graph.Scheds D) (y : Nat) (vec : V) (level : Nat) :
      Without P x s t → y ≠ x → Without P x s (add P vo sched t y vec level).1
  | flush {t} (order : List Nat) (n : Nat) : Without P x s t → x ∈ order → Without P x s (flush P t order n).1
  | cut {t} (order : List Nat) (n : Nat) (ws : List (Write V)) :
      Without P x s t → x ∈ order → ws <+: (flushUpToBad P (t.flushWrites order n)).1 → Without P x s (ws.foldl applyWrite t)
  | load {t} : Without P x s t → Without P x s t.loadEntry
  | unread {t} : Without P x s t → Without P x s { t with entry := 0 }

end Fave.Index
