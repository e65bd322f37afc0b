import Verif.Model.NodePool
/-! Histories of a node pool.  `live` maps every node in use to what its holder last put there. -/
namespace Duck
namespace NodePool
variable {P : Type}

/-- The nodes in use and what they should hold. -/
abbrev Live (P : Type) := Addr → Option (Content P)

/-- Change the entry of one node. -/
def Live.set (live : Live P) (a : Addr) (c : Option (Content P)) : Live P := fun b => if b = a then c else live b

/-- The histories of a pool whose user writes to and frees only nodes in use: `Reach zero s live` says that the
    pool `s` can be reached while the nodes in use are `live`. -/
inductive Reach (zero : P) : Pool P → Live P → Prop
  | init (garbage : Addr → Content P) (n : Nat) : Reach zero (init garbage n) (fun _ => none)
  | alloc {s s' : Pool P} {live a} : Reach zero s live → alloc zero s = some (s', a) →
      Reach zero s' (live.set a (some ⟨none, zero⟩))
  | write {s : Pool P} {live a} (c : Content P) : Reach zero s live → live a ≠ none →
      Reach zero { s with mem := store s.mem a c } (live.set a (some c))
  | free {s : Pool P} {live a} : Reach zero s live → live a ≠ none → Reach zero (free s a) (live.set a none)

/-- The address is a node of one of the pool's blocks. -/
def InBlocks (s : Pool P) (a : Addr) : Prop := ∃ n, s.blocks[a.1]? = some n ∧ a.2 < n

end NodePool
end Duck
