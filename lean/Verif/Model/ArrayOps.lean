/-
Model of the in-place permuting functions of Source/DKGenericArray.c: sort, reverse, shuffle.
The element storage is the list of elements; every access is bounds checked, `none` = access outside the array
(or, for functions with fuel, no result within the fuel).
-/
namespace Duck.ArrayOps
variable {α : Type}

/-- Exchange of two elements through a temporary (DKGenericArray.c:292-294, 332-334, 376-378, 427-429, 473-475). -/
def swap (a : List α) (i j : Nat) : Option (List α) :=
  match a[i]?, a[j]? with
  | some x, some y => some ((a.set i y).set j x)
  | _, _ => none

/-- Inner loop of InsertionSort, DKGenericArray.c:273-281, with `k = j + 1`:
    shift while `cmp( array[j], x ) < 0`, then store `x`.  Indices are relative to `base`. -/
def insertLoop (cmp : α → α → Int) (base : Nat) (x : α) : Nat → List α → Option (List α)
  | 0, a => if base < a.length then some (a.set base x) else none
  | j + 1, a =>
    match a[base + j]? with
    | none => none
    | some y =>
      if cmp y x < 0 then
        if base + (j + 1) < a.length then insertLoop cmp base x j (a.set (base + (j + 1)) y) else none
      else if base + (j + 1) < a.length then some (a.set (base + (j + 1)) x) else none

/-- Outer loop of InsertionSort( &array[base], count ), DKGenericArray.c:268-283; `i` runs up to `count`,
    `n` iterations remain. -/
def insertionLoop (cmp : α → α → Int) (base : Nat) : Nat → Nat → List α → Option (List α)
  | 0, _, a => some a
  | n + 1, i, a =>
    match a[base + i]? with
    | none => none
    | some x => (insertLoop cmp base x i a).bind (insertionLoop cmp base n (i + 1))

/-- InsertionSort( &array[base], count, cmp ), DKGenericArray.c:268-283 -/
def insertionSort (cmp : α → α → Int) (base count : Nat) (a : List α) : Option (List α) :=
  insertionLoop cmp base (count - 1) 1 a

/-- One of the three conditional exchanges of QuickSortPivot: `if( cmp( array[p], array[q] ) < 0 ) swap`. -/
def condSwap (cmp : α → α → Int) (p q : Nat) (a : List α) : Option (List α) :=
  match a[p]?, a[q]? with
  | some x, some y => if cmp x y < 0 then swap a q p else some a
  | _, _ => none

/-- QuickSortPivot, DKGenericArray.c:285-312: median of three moved to `hi`, returned with the array. -/
def pivot (cmp : α → α → Int) (lo hi : Nat) (a : List α) : Option (List α × α) :=
  let mid := lo + (hi - lo) / 2
  ((condSwap cmp mid lo a).bind fun a =>
   (condSwap cmp hi lo a).bind fun a =>
   condSwap cmp mid hi a).bind fun a => (a[hi]?).map fun p => (a, p)

/-- `while( cmp( array[++i], pivot ) > 0 );` DKGenericArray.c:323; the argument is `i + 1`, the next index tested. -/
def scanUp (cmp : α → α → Int) (a : List α) (p : α) (i : Nat) : Option Nat :=
  if h : i < a.length then
    if cmp a[i] p > 0 then scanUp cmp a p (i + 1) else some i
  else none
termination_by a.length - i

/-- `while( cmp( array[--j], pivot ) < 0 );` DKGenericArray.c:326; the argument is `j`. -/
def scanDown (cmp : α → α → Int) (a : List α) (p : α) : Nat → Option Nat
  | 0 => none
  | j + 1 =>
    match a[j]? with
    | none => none
    | some x => if cmp x p < 0 then scanDown cmp a p j else some j

/-- Main loop of QuickSortPartition, DKGenericArray.c:321-335 (`i1 = i + 1`). -/
def partitionLoop (cmp : α → α → Int) (p : α) : Nat → List α → Nat → Nat → Option (List α × Nat)
  | 0, _, _, _ => none
  | fuel + 1, a, i1, j =>
    (scanUp cmp a p i1).bind fun i =>
    (scanDown cmp a p j).bind fun j =>
      if i ≥ j then some (a, j)
      else (swap a i j).bind fun a => partitionLoop cmp p fuel a (i + 1) j

/-- QuickSortPartition, DKGenericArray.c:314-336 (`i = lo - 1`, `j = hi + 1`). -/
def partition (cmp : α → α → Int) (fuel lo hi : Nat) (a : List α) : Option (List α × Nat) :=
  (pivot cmp lo hi a).bind fun (a, p) => partitionLoop cmp p fuel a lo (hi + 1)

/-- QuickSort, DKGenericArray.c:338-353.  The segment is given by its exclusive end `e = hi + 1`
    (so that the empty array, `hi = -1`, is `e = 0`). -/
def quickSort (cmp : α → α → Int) : Nat → Nat → Nat → List α → Option (List α)
  | 0, _, _, _ => none
  | fuel + 1, lo, e, a =>
    if (e : Int) - 1 - lo < 10 then insertionSort cmp lo (e - lo) a
    else if (lo : Int) < (e : Int) - 1 then
      (partition cmp (fuel + 1) lo (e - 1) a).bind fun (a, p) =>
      (quickSort cmp fuel lo (p + 1) a).bind fun a =>
      quickSort cmp fuel (p + 1) e a
    else some a

/-- DKGenericArraySortObjects, DKGenericArray.c:357-361 (QuickSort( array, 0, length - 1 )). -/
def sortObjects (cmp : α → α → Int) (fuel : Nat) (a : List α) : Option (List α) :=
  quickSort cmp fuel 0 a.length a

/-- Loop of Reverse16/32/64/Reverse, DKGenericArray.c:367-434: `n` iterations remain, next index `i`. -/
def reverseLoop : Nat → Nat → List α → Option (List α)
  | 0, _, a => some a
  | n + 1, i, a => (swap a i (a.length - 1 - i)).bind (reverseLoop n (i + 1))

/-- DKGenericArrayReverse, DKGenericArray.c:436-456; the four element-size variants have the same loop. -/
def reverse (a : List α) : Option (List α) := reverseLoop (a.length / 2) 0 a

/-- Loop of Shuffle16/32/64/Shuffle, DKGenericArray.c:462-538: `k` iterations remain; `n = length - 1`;
    `rnd` is the stream of results of `rand()`. Returns the array and the rest of the stream. -/
def shuffleLoop (n : Nat) : Nat → Nat → (Nat → Nat) → List α → Option (List α)
  | 0, _, _, a => some a
  | k + 1, i, rnd, a => (swap a i (rnd i % n)).bind (shuffleLoop n k (i + 1) rnd)

/-- One pass of a shuffle loop. `n = length - 1` is -1 for an empty array: no iteration. -/
def shufflePass (rnd : Nat → Nat) (a : List α) : Option (List α) :=
  shuffleLoop (a.length - 1) (a.length - 1) 0 rnd a

/-- DKGenericArrayShuffle, DKGenericArray.c:540-559: for 8-byte elements the missing `break` after
    Shuffle64 runs the generic loop as well. -/
def shuffle (elementSize : Nat) (rnd rnd2 : Nat → Nat) (a : List α) : Option (List α) :=
  if elementSize = 8 then (shufflePass rnd a).bind (shufflePass rnd2) else shufflePass rnd a

end Duck.ArrayOps
