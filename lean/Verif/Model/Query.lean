import Verif.Model.Url
import Verif.Model.Dictionary
import Verif.Model.Printf
import Verif.Model.TextTrim
/-
Model of the table of URL escapes as the program builds it, of query parameters and of style declarations, Source/DKString.c:2106-2307.
Dictionaries are the hash tables of Model/Dictionary.lean with strings as keys.  Keys are immutable strings, whose copy is the
string itself.  Reference counts are not modelled.
-/
namespace Duck
namespace Query
open Unicode Text

/-- DKStringHash of a string, DKString.c:815-827 -/
def hash (s : List UInt8) : Nat := (Data.strhash s).toNat

/-- TestEquality, DKString.c:283-295 (strings with equal contents have equal hashes, C60) -/
def eqv (a b : List UInt8) : Bool := Data.cstr a == Data.cstr b

/-- A dictionary from strings to strings -/
abbrev Params := Dict.Dict (List UInt8) (List UInt8)

/-- DKStringURLPercentEscapePatterns, DKString.c:2106-2136, with DKHashTableInitDictionaryWithVAKeysAndObjects, DKHashTable.c:382-405:
    the entries are inserted in source order -/
def patterns : Except HTable.Fail Params := Dict.run hash eqv id (Url.table.reverse.map fun e => .set e.1 (some e.2))

/-- The order in which DKForeachKeyAndObject enumerates the table, DKGenericHashTable.c:472-483 -/
def order : List (List UInt8 × List UInt8) :=
  match patterns with
  | .ok d => (HTable.entries d.rows).map fun e => (e.1, e.2.getD [])
  | .error _ => []

/-- DKStringByAddingURLPercentEscapes, DKString.c:2142-2156; `fuel` bounds each replacement loop -/
def addEscapes (fuel : Nat) (s : List UInt8) : Option (List UInt8) := Url.escape fuel order s

/-- DKStringByRemovingURLPercentEscapes, DKString.c:2162-2176 -/
def removeEscapes (fuel : Nat) (s : List UInt8) : Option (List UInt8) := Url.unescape fuel order s

/-- DKStringSplitQueryParametersCallback, DKString.c:2182-2203: the key and object of the call of DKDictionarySetObject.
    DKStringSplit of a component that is not empty has at least one part. -/
def queryPair (fuel : Nat) (s : List UInt8) : Option (List UInt8 × Option (List UInt8)) :=
  (split s [0x3d]).bind fun parts =>
    match parts with
    | [] => none
    | [k] => (removeEscapes fuel k).map fun key => (key, none)
    | k :: v :: _ => (removeEscapes fuel k).bind fun key => (removeEscapes fuel v).map fun value => (key, some value)

/-- All results of a function that may fail -/
def forAll {α β : Type} (f : α → Option β) : List α → Option (List β)
  | [] => some []
  | x :: xs => (f x).bind fun y => (forAll f xs).map fun ys => y :: ys

/-- A dictionary built by DKDictionarySetObject with these keys and objects, in this order -/
def build (calls : List (List UInt8 × Option (List UInt8))) : Except HTable.Fail Params :=
  Dict.run hash eqv id (calls.reverse.map fun e => .set e.1 e.2)

/-- DKStringSplitQueryParameters, DKString.c:2205-2223: NULL or the dictionary -/
def splitQuery (fuel : Nat) (s : List UInt8) : Option (Option (Except HTable.Fail Params)) :=
  if s.length > 0 then
    (split s [0x26]).bind fun parts => (forAll (queryPair fuel) parts).map fun calls => some (build calls)
  else some none

/-- DKStringCombineQueryParametersCallback, DKString.c:2229-2250: "%s=%s", "&%s=%s", "%s" or "&%s" -/
def combinePair (fuel : Nat) (libc : Printf.Libc) (str : Data.Obj) (e : List UInt8 × Option (List UInt8)) : Option Data.Obj :=
  (addEscapes fuel e.1).bind fun k =>
    match e.2 with
    | some o => (addEscapes fuel o).bind fun v =>
        (Printf.printf Printf.writeData libc str (if str.bytes.length > 0 then [0x26, 0x25, 0x73, 0x3d, 0x25, 0x73] else [0x25, 0x73, 0x3d, 0x25, 0x73])
          [.cstr (some (Data.cstr k)), .cstr (some (Data.cstr v))]).map (·.1)
    | none => (Printf.printf Printf.writeData libc str (if str.bytes.length > 0 then [0x26, 0x25, 0x73] else [0x25, 0x73])
          [.cstr (some (Data.cstr k))]).map (·.1)

/-- The entries one after the other -/
def combineAll (fuel : Nat) (libc : Printf.Libc) : List (List UInt8 × Option (List UInt8)) → Data.Obj → Option Data.Obj
  | [], str => some str
  | e :: es, str => (combinePair fuel libc str e).bind fun str => combineAll fuel libc es str

/-- DKStringCombineQueryParameters, DKString.c:2252-2265 (`none` is NULL) -/
def combineQuery (fuel : Nat) (libc : Printf.Libc) : Option Params → Option (List UInt8)
  | none => some []
  | some d => (combineAll fuel libc (HTable.entries d.rows) ⟨[], 0⟩).map (·.bytes)

/-- DKStringSplitCSSStylesCallback, DKString.c:2271-2287: the call of DKDictionarySetObject, if any -/
def stylePair (s : List UInt8) : Option (Option (List UInt8 × Option (List UInt8))) :=
  (split s [0x3a]).bind fun parts =>
    match parts with
    | [k, v] => (trim k).bind fun key => (trim v).map fun value => some (key, some value)
    | _ => some none

/-- DKStringSplitCSSStyles, DKString.c:2289-2307 -/
def splitStyles (s : List UInt8) : Option (Option (Except HTable.Fail Params)) :=
  if s.length > 0 then
    (split s [0x3b]).bind fun parts => (forAll stylePair parts).map fun calls => some (build (calls.filterMap id))
  else some none

end Query
end Duck
