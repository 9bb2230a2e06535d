import Verif.Model.Graph

/-!
# Vocabulary for statements about graphs (specification side, used by no model function)
-/

namespace Verif
namespace DiGraph
variable {α : Type}

/-- There is an edge from `u` to `v`: `v` directly depends on `u`. -/
def Dep (g : DiGraph α) (u v : Nat) : Prop := (u, v) ∈ g.edges

instance (g : DiGraph α) (u v : Nat) : Decidable (g.Dep u v) :=
  inferInstanceAs (Decidable ((u, v) ∈ g.edges))

/-- A path with `k` edges from `u` to `v`. -/
inductive Walk (g : DiGraph α) : Nat → Nat → Nat → Prop
  | nil (u : Nat) : Walk g 0 u u
  | snoc {k u v w : Nat} : Walk g k u v → g.Dep v w → Walk g (k + 1) u w

/-- There is a non-empty path from `u` to `v`: `v` transitively depends on `u`. -/
def Reach (g : DiGraph α) (u v : Nat) : Prop := ∃ k, g.Walk (k + 1) u v

/-- All edge ends are nodes (petgraph guarantees it). -/
def WF (g : DiGraph α) : Prop := ∀ e ∈ g.edges, e.1 < g.n ∧ e.2 < g.n

/-- `order` lists every node once, each after all its direct dependencies: what `toposort` returns. -/
structure Topo (g : DiGraph α) (order : List Nat) : Prop where
  nodup : order.Nodup
  mem : ∀ v, v ∈ order ↔ v < g.n
  before : ∀ a v b, order = a ++ v :: b → ∀ u, g.Dep u v → u ∈ a

/-- Decidable form of `Topo`. -/
def isTopo (g : DiGraph α) (order : List Nat) : Bool :=
  decide order.Nodup && decide (order.length = g.n) && order.all (· < g.n) &&
  g.edges.all (fun e => decide (order.idxOf e.1 < order.idxOf e.2))

/-- Decidable form of `WF`. -/
def isWF (g : DiGraph α) : Bool := g.edges.all (fun e => decide (e.1 < g.n) && decide (e.2 < g.n))

/-- No task transitively depends on itself. -/
def Acyclic (g : DiGraph α) : Prop := ∀ v, ¬ g.Reach v v

/-- There is a non-empty path from `u` to `v` all of whose nodes (ends included) satisfy `P`. -/
inductive ReachVia (g : DiGraph α) (P : Nat → Prop) : Nat → Nat → Prop
  | single {u v : Nat} : P u → P v → g.Dep u v → ReachVia g P u v
  | snoc {u v w : Nat} : ReachVia g P u v → P w → g.Dep v w → ReachVia g P u w

/-- `s` is the subgraph of `g` on the nodes `ids`: same node weights, and exactly the edges of `g` between these
nodes, with multiplicity; node `a` of `s` is node `ids[a]` of `g`. -/
structure SubOf (s g : DiGraph α) (ids : List Nat) : Prop where
  increasing : ids.Pairwise (· < ·)
  size : s.n = ids.length
  node : ∀ a i : Nat, ids[a]? = some i → i < g.n ∧ s.nodes[a]? = g.nodes[i]?
  edge : ∀ a b i j : Nat, ids[a]? = some i → ids[b]? = some j → s.edges.count (a, b) = g.edges.count (i, j)
  wf : s.WF

end DiGraph
end Verif
