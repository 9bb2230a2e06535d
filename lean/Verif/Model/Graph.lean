/-!
# Directed graphs as used by execgraph (petgraph `DiGraph`)

petgraph is an external crate; the definitions model the documented behaviour of the functions that
`/repo/src/execgraph.rs` and `/repo/src/graphtheory.rs` call. Indices are unbounded naturals here, `u32` there
(petgraph panics when the 2^32-th node is added; not modelled).
-/

namespace Verif

/-- petgraph `DiGraph<N, ()>` (execgraph.rs:182 `deps: Graph<Cmd, (), Directed>`): node weights by index, and the
edges (source, target) in order of insertion. Parallel edges are allowed. -/
structure DiGraph (α : Type) where
  nodes : List α
  edges : List (Nat × Nat)
deriving DecidableEq, Repr

namespace DiGraph
variable {α β : Type}

/-- `Graph::new()` (execgraph.rs:194). -/
def empty : DiGraph α := ⟨[], []⟩

/-- `node_count()` / `raw_nodes().len()` (execgraph.rs:202). -/
def n (g : DiGraph α) : Nat := g.nodes.length

/-- `add_node` (execgraph.rs:227): appended, its index is the old node count. -/
def addNode (g : DiGraph α) (a : α) : DiGraph α := { g with nodes := g.nodes ++ [a] }

/-- `add_edge` (execgraph.rs:233, graphtheory.rs:61): appended, duplicates kept. The bounds panic of petgraph is not
modelled: both callers pass indices of existing nodes. -/
def addEdge (g : DiGraph α) (u v : Nat) : DiGraph α := { g with edges := g.edges ++ [(u, v)] }

/-- `neighbors(u)` (graphtheory.rs:33, :84): targets of the outgoing edges, most recently added first. -/
def succs (g : DiGraph α) (u : Nat) : List Nat :=
  ((g.edges.filter (fun e => e.1 == u)).map (·.2)).reverse

/-- `neighbors_directed(v, Incoming)` (graphtheory.rs:104, sync.rs): sources of the incoming edges, most recently
added first. -/
def preds (g : DiGraph α) (v : Nat) : List Nat :=
  ((g.edges.filter (fun e => e.2 == v)).map (·.1)).reverse

/-- `reverse()` (execgraph.rs:468): every edge turned round. -/
def reverse (g : DiGraph α) : DiGraph α := { g with edges := g.edges.map (fun e => (e.2, e.1)) }

/-- `map(|_, w| w.clone(), |_, _| ())` (graphtheory.rs:55) with a general node function. -/
def mapNodes (f : α → β) (g : DiGraph α) : DiGraph β := ⟨g.nodes.map f, g.edges⟩

/-- Does petgraph's `filter_map` keep node `i`? Crate petgraph; called at execgraph.rs:464-492, 498-524. -/
def kept (g : DiGraph α) (f : Nat → α → Option β) (i : Nat) : Bool :=
  match g.nodes[i]? with
  | some a => (f i a).isSome
  | none => false

/-- Index of node `i` in the filtered graph: the number of kept nodes before it. Crate petgraph; called at execgraph.rs:498-524. -/
def newIndex (g : DiGraph α) (f : Nat → α → Option β) (i : Nat) : Nat :=
  ((List.range i).filter (g.kept f)).length

/-- Old index of the nodes of the filtered graph, in order (the inverse of `newIndex`). Crate petgraph; called at execgraph.rs:498-524. -/
def keptList (g : DiGraph α) (f : Nat → α → Option β) : List Nat :=
  (List.range g.n).filter (g.kept f)

/-- petgraph `filter_map(node_fn, |_,_| Some(()))` (execgraph.rs:477-483, 491, 498-523, 540-560): nodes for which
the function gives `Some` are kept in order and renumbered densely; an edge is kept iff both ends are. -/
def filterMap (g : DiGraph α) (f : Nat → α → Option β) : DiGraph β where
  nodes := (List.range g.n).filterMap (fun i => (g.nodes[i]?).bind (f i))
  edges := (g.edges.filter (fun e => g.kept f e.1 && g.kept f e.2)).map
    (fun e => (g.newIndex f e.1, g.newIndex f e.2))

/-- `Vec::swap_remove(i)`, used inside petgraph's `remove_edge`/`remove_node`. Standard library, no counterpart in the repo. -/
def swapRemove (l : List α) (i : Nat) : List α :=
  match l.getLast? with
  | some x => (l.set i x).dropLast
  | none => []

/-- Index of the most recently added edge satisfying `p`. petgraph keeps per node a linked list of edges whose head
is the most recently added one; this is the same as the largest index as long as no edge in the middle has been
removed, which is so for the single use in `add_task`. Crate petgraph, no counterpart in the repo. -/
def lastEdge? (g : DiGraph α) (p : Nat × Nat → Bool) : Option Nat :=
  ((List.range g.edges.length).reverse).find? (fun i => (g.edges[i]?).any p)

/-- The loop of petgraph's `remove_node` that removes all edges on one side of a node, at most `fuel` times. Crate petgraph, no counterpart in the repo. -/
def removeEdges (p : Nat × Nat → Bool) : Nat → DiGraph α → DiGraph α
  | 0, g => g
  | fuel + 1, g =>
    match g.lastEdge? p with
    | none => g
    | some i => removeEdges p fuel { g with edges := swapRemove g.edges i }

/-- petgraph `remove_node(a)` (execgraph.rs:230): remove outgoing edges, then incoming ones, then `swap_remove` the
node; the node that was last gets the index `a`. -/
def removeNode (g : DiGraph α) (a : Nat) : DiGraph α :=
  if a < g.n then
    let g1 := removeEdges (fun e => e.1 == a) g.edges.length g
    let g2 := removeEdges (fun e => e.2 == a) g1.edges.length g1
    let last := g2.n - 1
    let ren := fun i => if i == last then a else i
    ⟨swapRemove g2.nodes a, g2.edges.map (fun e => (ren e.1, ren e.2))⟩
  else g

end DiGraph
end Verif
