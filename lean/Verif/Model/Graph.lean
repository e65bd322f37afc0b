import Verif.Model.BinaryTree
/-!
Model of graphs: Source/DKGraph.c 43-515.

Vertices are object references; `cls v` is the equality class of `v` under DKEqual, so `cls a = cls b` is DKEqual( a, b ) and
`a = b` is pointer equality.  The dictionary from vertices to edge lists is replaced by the finite map it implements (C06, C23);
the list of edges of a vertex by its sequence of elements (C26).  Edges are objects with an identity; the user information is
kept in a store indexed by edge.  Vertices are not NULL.
-/
namespace Duck
namespace Graph
variable {V K : Type} [DecidableEq V] [DecidableEq K] (cls : V → K)

/-- struct DKGraphEdge (43-50). -/
structure Edge (V : Type) where
  id : Nat
  first : V
  second : V

/-- struct DKGraph (205-210), with the store of the edges' user information and the next edge identity. -/
structure Graph (V K : Type) where
  map : K → Option (List (Edge V))
  info : Nat → Option Nat
  next : Nat

/-- DKGraphInit (228-237). -/
def init : Graph V K := ⟨fun _ => none, fun _ => none, 0⟩

/-- DKDictionarySetObject, DKDictionaryRemoveObject on the map of edges. -/
def setMap (g : Graph V K) (k : K) (es : Option (List (Edge V))) : Graph V K :=
  { g with map := fun k' => if k' = k then es else g.map k' }

/-- The search loop of FindEdge (262-268). -/
def scan (dst : V) : List (Edge V) → Option (Edge V)
  | [] => none
  | e :: es => if e.second = dst then some e else scan dst es

/-- DKListGetCount( NULL ) is 0: the edges a loop over the list of edges of a vertex visits. -/
def edgesOf (g : Graph V K) (v : V) : List (Edge V) := (g.map (cls v)).getD []

/-- FindEdge (254-288) with insertIfNotFound false. -/
def findEdge (g : Graph V K) (src dst : V) : Option (Edge V) := (g.map (cls src)).bind (scan dst)

/-- FindEdge (271-285), the insertion.  A new edge has no user information. -/
def insertEdge (g : Graph V K) (src dst : V) : Graph V K :=
  let e : Edge V := ⟨g.next, src, dst⟩
  let g := setMap g (cls src) (some (edgesOf cls g src ++ [e]))
  { g with next := g.next + 1, info := fun i => if i = e.id then none else g.info i }

/-- FindEdge (254-288) with insertIfNotFound true. -/
def findOrInsert (g : Graph V K) (src dst : V) : Graph V K :=
  if (findEdge cls g src dst).isSome then g else insertEdge cls g src dst

/-- The loop of RemoveEdge (299-313): the index of the first edge to the vertex. -/
def indexOf (dst : V) : List (Edge V) → Nat → Option Nat
  | [], _ => none
  | e :: es, i => if e.second = dst then some i else indexOf dst es (i + 1)

/-- The body of the loop of RemoveEdge (305-309). -/
def dropEdge (g : Graph V K) (src : V) (es : List (Edge V)) (i : Nat) : Graph V K :=
  if es.length = 1 then setMap g (cls src) none else setMap g (cls src) (some (es.eraseIdx i))

/-- RemoveEdge (294-314). -/
def removeOne (g : Graph V K) (src dst : V) : Graph V K :=
  match indexOf dst (edgesOf cls g src) 0 with
  | none => g
  | some i => dropEdge cls g src (edgesOf cls g src) i

/-- DKGraphAddEdge (321-330). -/
def addEdge (g : Graph V K) (src dst : V) (both : Bool) : Graph V K :=
  let g := findOrInsert cls g src dst
  if both then findOrInsert cls g dst src else g

/-- DKGraphRemoveEdge (336-345). -/
def removeEdge (g : Graph V K) (src dst : V) (both : Bool) : Graph V K :=
  let g := removeOne cls g src dst
  if both then removeOne cls g dst src else g

/-- DKGraphRemoveAllEdges (351-357). -/
def removeAll (g : Graph V K) : Graph V K := { g with map := fun _ => none }

/-- DKGraphGetEdges (363-369): NULL when there are none. -/
def getEdges (g : Graph V K) (src : V) : Option (List (Edge V)) := g.map (cls src)

/-- DKGraphGetEdge (375-381). -/
def getEdge (g : Graph V K) (src dst : V) : Option (Edge V) := findEdge cls g src dst

/-- DKGraphEdgeGetUserInfo (115-118). -/
def getInfo (g : Graph V K) (e : Edge V) : Option Nat := g.info e.id

/-- DKGraphEdgeSetUserInfo (124-132) on the edge between two vertices; nothing happens on NULL. -/
def setInfo (g : Graph V K) (src dst : V) (u : Option Nat) : Graph V K :=
  match getEdge cls g src dst with
  | none => g
  | some e => { g with info := fun i => if i = e.id then u else g.info i }

/-- A call that changes a graph. -/
inductive Op (V : Type) where
  | add (src dst : V) (both : Bool)
  | remove (src dst : V) (both : Bool)
  | removeAll
  | setInfo (src dst : V) (u : Option Nat)

/-- One call. -/
def step (g : Graph V K) : Op V → Graph V K
  | .add s t b => addEdge cls g s t b
  | .remove s t b => removeEdge cls g s t b
  | .removeAll => removeAll g
  | .setInfo s t u => setInfo cls g s t u

/-- The graph after a history, most recent call first. -/
def run : List (Op V) → Graph V K
  | [] => init
  | op :: h => step cls (run h) op

/-- The loop over the edges of a vertex in DKGraphTraverse (408-415).  `vis` are the members of the visited set, up to equality. -/
def enqueue (vis : List K) : List (Edge V) → List V → List V
  | [], q => q
  | e :: es, q => enqueue vis es (if cls e.second ∈ vis then q else q ++ [e.second])

/-- The loop of DKGraphTraverse (395-416).  `callback` is given the vertices of the calls so far, the current one included,
    so that it may keep state in its context; it does not change the graph.  The result and the calls made. -/
def traverseGo (g : Graph V K) (callback : List V → Int) (fuel : Nat) (queue : List V) (vis : List K) (calls : List V) :
    Option (Int × List V) :=
  match queue with
  | [] => some (0, calls)
  | v :: rest =>
    if callback (calls ++ [v]) ≠ 0 then some (callback (calls ++ [v]), calls ++ [v]) else
    match fuel with
    | 0 => none
    | fuel + 1 => traverseGo g callback fuel (enqueue cls (cls v :: vis) (edgesOf cls g v) rest) (cls v :: vis) (calls ++ [v])

/-- DKGraphTraverse (387-419). -/
def traverse (g : Graph V K) (callback : List V → Int) (fuel : Nat) (src : V) : Option (Int × List V) :=
  traverseGo cls g callback fuel [src] [] []

/-- DKGraphGetShortestPath (438-464) up to the first use of DKBinaryTreeGetFirstObject, which is entered with the tree holding
    the start node: the first node, if that walk returns within `fuel` steps, handed to the rest of the function. -/
def shortestPath {N R : Type} (compare : N → N → Int) (start : N) (fuel : Nat) (rest : BTree.Node N N → Option R) : Option R :=
  (BTree.insert compare BTree.init start start .ifNotFound).bind fun t => (BTree.firstWalk fuel t.root).bind rest

end Graph
end Duck
