/-! Model of `DKNodePool` (Source/DKNodePool.c).

    Memory is a function from node addresses to node contents.  An address is a block (numbered in the order of the
    `dk_malloc` calls that made them, 43) and an index inside it.  `dk_malloc` is assumed to succeed and to return
    memory that overlaps no other block.  The first word of a node is kept apart from the rest because the free list
    is threaded through it (DKNodePool.h 37-41).  Reading through a NULL pointer is `none`. -/
namespace Duck
namespace NodePool

/-- Block number and index in the block: `firstNode + nodeSize * i` (48-52). -/
abbrev Addr := Nat × Nat

/-- What a node's memory holds: its first word read as a pointer, and all its other bytes. -/
structure Content (P : Type) where
  link : Option Addr
  rest : P
deriving DecidableEq, Repr

/-- struct DKNodePool (DKNodePool.h 50-58) and the memory of its blocks.  `blocks` are the node counts of the blocks,
    oldest first (`blockList` is the same list, newest first). -/
structure Pool (P : Type) where
  freeList : Option Addr
  blocks : List Nat
  nodeCount : Nat
  mem : Addr → Content P

variable {P : Type}

/-- A store to one node. -/
def store (mem : Addr → Content P) (a : Addr) (c : Content P) : Addr → Content P := fun b => if b = a then c else mem b

/-- DKNodePoolFree (136-141). -/
def free (s : Pool P) (a : Addr) : Pool P :=
  { s with mem := store s.mem a { s.mem a with link := s.freeList }, freeList := some a }

/-- The loop of DKNodePoolAllocBlock (50-54): `n` iterations remain, the next index is `i`. -/
def freeAll (b : Nat) : Nat → Nat → Pool P → Pool P
  | 0, _, s => s
  | n + 1, i, s => freeAll b n (i + 1) (free s (b, i))

/-- DKNodePoolAllocBlock (37-57): the node count of the new block (`MIN_RESERVE_NODE_COUNT` is 32, line 31), and the
    pool with the block's nodes freed into it. -/
def allocBlock (s : Pool P) (count : Nat) : Pool P × Nat :=
  let count := if count < 32 then 32 else count
  (freeAll s.blocks.length count 0 s, count)

/-- DKNodePoolAddBlock (63-79). -/
def addBlock (s : Pool P) (count : Nat) : Pool P :=
  if s.blocks ≠ [] then
    let r := allocBlock s s.nodeCount
    { r.1 with blocks := s.blocks ++ [r.2], nodeCount := s.nodeCount + r.2 }
  else
    let r := allocBlock s count
    { r.1 with blocks := [r.2], nodeCount := r.2 }

/-- DKNodePoolInit (85-94) over memory with arbitrary contents. -/
def init (garbage : Addr → Content P) (nodeCount : Nat) : Pool P :=
  let s : Pool P := ⟨none, [], 0, garbage⟩
  if nodeCount > 0 then addBlock s nodeCount else s

/-- DKNodePoolAlloc (119-130): `zero` is the rest of a node after `memset( node, 0, nodeSize )`. -/
def alloc (zero : P) (s : Pool P) : Option (Pool P × Addr) :=
  let s := if s.freeList = none then addBlock s 0 else s
  match s.freeList with
  | none => none
  | some node => some ({ s with freeList := (s.mem node).link, mem := store s.mem node ⟨none, zero⟩ }, node)

end NodePool
end Duck
