import Verif.Model.Memory
/-!
# Specification: correct use of memory

A trace of calls of malloc and free and of accesses is correct if every block is freed at most once, by the allocator it came from, only blocks are freed, and every access is to a block that was not
freed, within its size (or to memory of the program, within its size).  Independent of the program that made the trace.
-/
namespace Duck
namespace Memory

/-- A block that was not freed: its number, its size, the allocator. -/
abbrev Live := List (Nat × Nat × Bool)

/-- What one event does to the blocks, `none` if it is wrong. -/
def judge (l : Live) : Event → Option Live
  | .malloc cb n size => some ((n, size, cb) :: l)
  | .free cb (.block n) =>
    match l.find? (·.1 == n) with
    | some x => if x.2.2 = cb then some (l.erase x) else none
    | none => none
  | .free _ _ => none
  | .access (some (.block n)) upto =>
    match l.find? (·.1 == n) with
    | some x => if upto ≤ x.2.1 then some l else none
    | none => none
  | .access (some (.caller size)) upto => if upto ≤ size then some l else none
  | .access (some .static) upto => if upto ≤ 4 then some l else none
  | .access none _ => none

/-- The blocks that are not freed after the trace, `none` if something in it is wrong. -/
def outcome (t : List Event) : Option Live := t.foldlM judge []

/-- The trace is correct. -/
def Safe (t : List Event) : Prop := outcome t ≠ none

/-- The sizes of the blocks that have not been freed. -/
def outstanding (t : List Event) : List Nat := ((outcome t).getD []).map (·.2.1)

/-- Whose function an event calls: `true` of the program, `false` of the C library. -/
def Event.cb : Event → Option Bool
  | .malloc cb _ _ => some cb
  | .free cb _ => some cb
  | .access _ _ => none

/-- Whose functions are in use after these actions. -/
def functions (fl : Bool) : List Action → Bool
  | [] => fl
  | .setAllocator m _ :: as => functions m as
  | _ :: as => functions fl as

/-- The sizes of the blocks a container should have: one of its capacity, for a table one of all rows, for a pool its blocks, for an object itself; none before it needs one, none for memory of the
    program. -/
def footprint : Container → List Nat
  | .arr a => if 0 < a.maxLength then [a.maxLength.toNat * a.esize] else []
  | .bytes a => if 0 < a.maxLength then [a.maxLength.toNat + 4] else []
  | .table t => if 0 < t.rowCount then [t.rowSize * t.rowCount] else []
  | .pool p => p.blocks.map fun b => 16 + p.nodeSize * b.2
  | .object o => [o.structSize + o.extra]

/-- The rules for operations: ranges are within the contents, memory of the program is not changed, a search stops at a deleted row only if there is one, only nodes the client has are given back. -/
def Allowed : Container → Op → Prop
  | .arr a, .reserve _ | .arr a, .setLength _ | .arr a, .append _ => 0 ≤ a.maxLength
  | .arr a, .replace l k _ => 0 ≤ a.maxLength ∧ l + k ≤ a.length
  | .arr _, .visit | .arr _, .permute => True
  | .bytes a, .reserve _ | .bytes a, .setLength _ | .bytes a, .append _ => 0 ≤ a.maxLength
  | .bytes a, .align k => 0 ≤ a.maxLength ∧ 0 < k
  | .bytes a, .replace l k _ => 0 ≤ a.maxLength ∧ l + k ≤ a.length
  | .bytes _, .visit => True
  | .table t, .insert .deleted => 0 < t.deleted
  | .table _, .insert _ | .table _, .find | .table _, .remove _ | .table _, .removeAll | .table _, .visit => True
  | .pool _, .alloc => True
  | .pool p, .free x => x ∈ p.used
  | .object _, .visit => True
  | _, _ => False

/-- The rules: the program gives both functions or none, before anything is allocated and before DKRuntimeInit; nodes of pools hold a pointer; only containers that exist are used. -/
def Legal (s : State) : Action → Prop
  | .setAllocator m f => m = f ∧ s.started = false ∧ s.mem.next = 0
  | .start _ => True
  | .new (.pool size _) => 8 ≤ size
  | .new _ => True
  | .op i o => ∃ c, s.containers[i]? = some (some c) ∧ Allowed c o
  | .finalize i => ∃ c, s.containers[i]? = some (some c)

/-- A program that keeps the rules as long as it runs. -/
def Keeps (s : State) : List Action → Prop
  | [] => True
  | a :: as => Legal s a ∧ ∀ t, step s a = .ok t → Keeps t as

/-- A decision procedure for the rules. -/
def allowedB : Container → Op → Bool
  | .arr a, .reserve _ | .arr a, .setLength _ | .arr a, .append _ => 0 ≤ a.maxLength
  | .arr a, .replace l k _ => 0 ≤ a.maxLength && l + k ≤ a.length
  | .arr _, .visit | .arr _, .permute => true
  | .bytes a, .reserve _ | .bytes a, .setLength _ | .bytes a, .append _ => 0 ≤ a.maxLength
  | .bytes a, .align k => 0 ≤ a.maxLength && 0 < k
  | .bytes a, .replace l k _ => 0 ≤ a.maxLength && l + k ≤ a.length
  | .bytes _, .visit => true
  | .table t, .insert .deleted => 0 < t.deleted
  | .table _, .insert _ | .table _, .find | .table _, .remove _ | .table _, .removeAll | .table _, .visit => true
  | .pool _, .alloc => true
  | .pool p, .free x => x ∈ p.used
  | .object _, .visit => true
  | _, _ => false

/-- The rules, as a program. -/
def legalB (s : State) : Action → Bool
  | .setAllocator m f => m = f && s.started = false && s.mem.next = 0
  | .start _ => true
  | .new (.pool size _) => 8 ≤ size
  | .new _ => true
  | .op i o => match s.containers[i]? with | some (some c) => allowedB c o | _ => false
  | .finalize i => match s.containers[i]? with | some (some _) => true | _ => false

/-- The rules for a whole program. -/
def keepsB (s : State) : List Action → Bool
  | [] => true
  | a :: as => legalB s a && (match step s a with | .ok t => keepsB t as | .error _ => true)

end Memory
end Duck
