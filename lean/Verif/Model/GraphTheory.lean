import Verif.Model.Graph

/-!
# graphtheory.rs

`toposort` of petgraph is a parameter: the functions take the order it returned, and the theorems hold for every
topological order.
-/

namespace Verif
namespace DiGraph
variable {α : Type}

/-- Inner loops of `descendants_at_distance` (graphtheory.rs:31-39): for every vertex of the queue and every child,
visit the child if new. Pairs (next_vertices, visited). Hash sets are modelled by lists without duplicates; their
iteration order does not influence the resulting sets. -/
def expand (g : DiGraph α) : List Nat → List Nat × List Nat → List Nat × List Nat
  | [], acc => acc
  | v :: vs, acc =>
    expand g vs ((g.succs v).foldl
      (fun acc c => if c ∈ acc.2 then acc else (acc.1 ++ [c], acc.2 ++ [c])) acc)

/-- Loop of `descendants_at_distance` (graphtheory.rs:25-44), with the remaining distance. -/
def descLoop (g : DiGraph α) : Nat → List Nat → List Nat → List Nat
  | 0, queue, _ => queue
  | d + 1, queue, visited =>
    if queue = [] then []
    else
      let r := g.expand queue ([], visited)
      descLoop g d r.1 r.2

/-- `descendants_at_distance` (graphtheory.rs:11-45). The distance is a natural number (the code has `i32` and is
only called with 2). -/
def descendantsAt (g : DiGraph α) (source d : Nat) : List Nat := g.descLoop d [source] [source]

/-- Body of the loop in `transitive_closure_dag` (graphtheory.rs:60-62). -/
def tcStep (tc : DiGraph α) (u : Nat) : DiGraph α :=
  (tc.descendantsAt u 2).foldl (fun t v => t.addEdge u v) tc

/-- `transitive_closure_dag` (graphtheory.rs:54-66) after `toposort` returned `order`. -/
def transitiveClosure (g : DiGraph α) (order : List Nat) : DiGraph α :=
  order.reverse.foldl tcStep g

/-- `iter.map(|x| 1 + level[x]).max().unwrap_or(0)` (graphtheory.rs:85, 105). `u32` overflow is not modelled. -/
def maxLevel (lev : Nat → Nat) (ns : List Nat) : Nat :=
  ns.foldl (fun m x => max m (1 + lev x)) 0

/-- Update of a level vector at one index. Assignments `levels[i] = x` (graphtheory.rs:77-112). -/
def setLevel (lev : Nat → Nat) (v k : Nat) : Nat → Nat := fun x => if x = v then k else lev x

/-- `blevel_dag` (graphtheory.rs:77-89) after `toposort` returned `order`. The vector is a function. -/
def blevel (g : DiGraph α) (order : List Nat) : Nat → Nat :=
  order.reverse.foldl (fun lev v => setLevel lev v (maxLevel lev (g.succs v))) (fun _ => 0)

/-- `tlevel_dag` (graphtheory.rs:98-109) after `toposort` returned `order`. -/
def tlevel (g : DiGraph α) (order : List Nat) : Nat → Nat :=
  order.foldl (fun lev v => setLevel lev v (maxLevel lev (g.preds v))) (fun _ => 0)

end DiGraph
end Verif
