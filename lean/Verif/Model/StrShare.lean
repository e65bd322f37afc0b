import Verif.Model.Data
/-! # DKString.c: immutable strings used by several threads at once

An immutable string's only field that changes is `hashCode`, the cache that UpdateHash fills.  The threads' calls are cut into
steps at each load and store of that field; the other fields are only read.  Simplification: a load or store of the
`uintptr_t` field is one step (the code uses a plain field, not an atomic one). -/
namespace Duck
namespace StrShare
open Data

/-- The calls of a thread: DKStringHash (DKString.c 815-827), DKStringEqualToString by TestEquality (283-295), and
    DKStringInitWithString (449-469) for a new string. -/
inductive Call where
  | hash (i : Nat)
  | equal (i j : Nat)
  | copy (i : Nat)
deriving DecidableEq

inductive Res where
  | code (h : BitVec 64)
  | truth (b : Bool)
  | made (k : Nat)
deriving DecidableEq

/-- Where a thread is. -/
inductive Pc where
  | idle
  /-- about to call UpdateHash on each of `left`, the first load of its `hashCode` (DKString.c 272) -/
  | test (c : Call) (left : List Nat)
  /-- the cache of the first of `left` was empty: about to compute the hash and store it (274-275) -/
  | fill (c : Call) (left : List Nat)
  /-- about to load `hashCode` for the result (823; 291, left operand; 462) -/
  | load (c : Call)
  /-- about to load the other `hashCode` of the comparison (291, right operand) -/
  | load2 (c : Call) (h : BitVec 64)
deriving DecidableEq

/-- The strings `0 … n - 1`, the threads, and the results given so far. -/
structure St where
  n : Nat
  str : Nat → Str
  pc : Nat → Pc
  log : List (Call × Res)

def setPc (s : St) (t : Nat) (p : Pc) : St := { s with pc := fun u => if u = t then p else s.pc u }

/-- A call returns. -/
def answer (s : St) (t : Nat) (c : Call) (r : Res) : St := { setPc s t .idle with log := (c, r) :: s.log }

/-- A call begins: DKStringHash (819-821), TestEquality (285-289) and DKStringInitWithString (458-462). -/
def begin (s : St) (t : Nat) : Call → St
  | .hash i => setPc s t (.test (.hash i) [i])
  | .equal i j => if i = j then answer s t (.equal i j) (.truth true) else setPc s t (.test (.equal i j) [i, j])
  | .copy i => setPc s t (.load (.copy i))

/-- Store of the computed hash (DKString.c 275). -/
def store (s : St) (i : Nat) : St := { s with str := upd s.str i { s.str i with hashCode := strhash (s.str i).data.bytes } }

/-- The new string of DKStringInitWithString (465-466). -/
def make (s : St) (i : Nat) (h : BitVec 64) : St := { s with n := s.n + 1, str := upd s.str s.n ⟨⟨(s.str i).data.bytes, 0⟩, h⟩ }

/-- The last load of a call. -/
def finish (s : St) (t : Nat) : Call → St
  | .hash i => answer s t (.hash i) (.code (s.str i).hashCode)
  | .equal i j => setPc s t (.load2 (.equal i j) (s.str i).hashCode)
  | .copy i => answer (make s i (s.str i).hashCode) t (.copy i) (.made s.n)

/-- TestEquality after both loads (DKString.c 291-294). -/
def compare (s : St) (t : Nat) (h : BitVec 64) : Call → St
  | .equal i j =>
    if h ≠ (s.str j).hashCode then answer s t (.equal i j) (.truth false)
    else answer s t (.equal i j) (.truth (cstr (s.str i).data.bytes == cstr (s.str j).data.bytes))
  | c => setPc s t (.load c)

/-- The next step of thread `t`. -/
def step (s : St) (t : Nat) : St :=
  match s.pc t with
  | .idle => s
  | .test c [] => setPc s t (.load c)
  | .test c (i :: left) =>
    if (s.str i).hashCode = 0 ∧ (s.str i).data.bytes.length > 0 then setPc s t (.fill c (i :: left)) else setPc s t (.test c left)
  | .fill c [] => setPc s t (.test c [])
  | .fill c (i :: left) => setPc (store s i) t (.test c left)
  | .load c => finish s t c
  | .load2 c h => compare s t h c

/-- The strings a call is about. -/
def Call.args : Call → List Nat
  | .hash i => [i]
  | .equal i j => [i, j]
  | .copy i => [i]

/-- What can happen: an idle thread calls a function on strings that exist, or a thread goes on. -/
inductive Step : St → St → Prop
  | begin (s t c) : s.pc t = .idle → (∀ i ∈ c.args, i < s.n) → Step s (begin s t c)
  | go (s t) : s.pc t ≠ .idle → Step s (step s t)

/-- The strings given at the start, made by DKStringInitWithBytes and the like: the cache is empty. -/
def start (texts : List (List UInt8)) : St :=
  ⟨texts.length, fun i => ⟨⟨texts.getD i [], 0⟩, 0⟩, fun _ => .idle, []⟩

/-- The states of the program. -/
inductive Reach (texts : List (List UInt8)) : St → Prop
  | start : Reach texts (start texts)
  | step {s s'} : Reach texts s → Step s s' → Reach texts s'

end StrShare
end Duck
