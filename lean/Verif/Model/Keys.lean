import Verif.Model.Compare
import Verif.Model.Copying
/-! # Model of the hash of objects of all classes, with which hash tables and sets find their keys -/
namespace Duck
namespace Compare

/-- DKHash (DKComparison.c 124-134), with DKStringHash (DKString.c 815-827), DKDataHash (DKData.c 480-491), DKNumberHash (DKNumber.c 930-962), DKPairHash (DKPair.c 189-197),
    DKStructHash (DKStruct.c 274-287) and DKPointerHash (DKComparison.c 66-69) of arrays and lists (DKArray.c 80, DKLinkedList.c 100) and of classes without a method
    of their own (DKRuntime.c 174-186). -/
def hash : Obj → Option (BitVec 64)
  | .null => some 0
  | .str _ bs => some (Data.strHash (Data.fresh bs))
  | .data _ bs => some (Data.hash bs)
  | .num _ n => Number.hash n
  | .pair _ a b => (hash a).bind fun x => (hash b).map fun y => x ^^^ y
  | .struct _ _ bs => some (Data.memhash bs)
  | .list p _ _ => some (BitVec.ofNat 64 (Copying.pointerHash p))
  | .other p => some (BitVec.ofNat 64 (Copying.pointerHash p))

end Compare
end Duck
