/-! Model of reference counting and weak references on one object
    (Source/DKRuntime+RefCount.c, Source/DKRuntime+Metadata.c), as an interleaving transition system.

    Any number of threads call retain, release, try-release, retain-weak, resolve-weak and release-weak on one object and
    hand references to each other.  Each access to shared memory is one step of one thread; a step that touches freed
    memory is `fault`.  Simplifications: memory is sequentially consistent and the plain reads of `refcount` are single
    accesses; the body of a section guarded by MetadataTableLock is one step; a new metadata object enters the model when
    it is put in the table (before that, and if it is discarded, only its creator knows it); the finalizer of a metadata
    object and its deallocation are one step with the decrement to zero; a metadata object's own count is a natural
    number (its flag bits are never set: nobody takes weak references to weak references); an address is not reused after
    it is freed. -/
namespace Duck
namespace RefCount

/-- DKRefCountDisabledBit, DKRefCountMetadataBit, DKRefCountMask (DKRuntime.h 80-97). -/
def disabledBit : BitVec 32 := 0x20000000#32
def metadataBit : BitVec 32 := 0x40000000#32
def mask : BitVec 32 := 0x0fffffff#32

/-- The callers of DKMetadataFindOrInsert. -/
inductive Use where
  | retainWeak | release | tryRelease
  deriving DecidableEq

/-- What a thread does next; `m` is a metadata object, `rc` a value read earlier. -/
inductive PC where
  | idle
  /- DKRetain: line 56, line 60 -/
  | retainRead | retainInc
  /- DKRelease: lines 78-82, line 84 -/
  | relRead | relDec
  /- DKMetadataFindOrInsert: lines 118-131, lines 137-151 -/
  | find (u : Use) | insert (u : Use)
  /- DKRelease: lines 98, 100, 103-104, 106 -/
  | relLock (m : Nat) | relDecL (m : Nat) | relNull (m : Nat) | relUnlock (m : Nat) (zero : Bool)
  /- DKTryRelease: lines 133-139, 143, 157, 159-161, 165, 167, 172 -/
  | tryRead | tryCas (rc : BitVec 32) | tryLock (m : Nat) | tryReadL (m : Nat) | tryCasL (m : Nat) (rc : BitVec 32)
  | tryNull (m : Nat) | tryUnlock (m : Nat) (zero : Bool)
  /- DKMetadataRemove: lines 166-171, and DKRelease( metadata ) at 173: lines 78 and 84 -/
  | remove (m : Nat) | dropRead (m : Nat) | dropDec (m : Nat)
  /- DKFinalize, DKDealloc: lines 89-90, 111-112, 145-146, 177-178 -/
  | fin | dealloc
  /- DKRetain( weakref ) in DKRetainWeak (201): lines 56 and 60 -/
  | weakRead (m : Nat) | weakInc (m : Nat)
  /- DKResolveWeak: lines 219, 221, DKRetain( target ) lines 56 and 60, line 223 -/
  | resLock (m : Nat) | resRead (m : Nat) | resRetain (m : Nat) | resInc (m : Nat) | resUnlock (m : Nat) (target : Bool)
  /- DKRelease( weakref ): lines 78 and 84 -/
  | wrelRead (m : Nat) | wrelDec (m : Nat)
  deriving DecidableEq

/-- What the last call of a thread returned. -/
inductive Result where
  | none | retained | released | tried (freed : Bool) | weak (m : Nat) | resolved (target : Bool) | weakReleased
  deriving DecidableEq

/-- A thread: the strong and weak references it owns, its position, and the result of its last call. -/
structure Thread where
  strong : Nat
  weak : List Nat
  pc : PC
  last : Result
  deriving DecidableEq

/-- struct DKMetadata (Source/DKRuntime+Metadata.h): count, weakTarget not NULL, weakLock and its holder, and how often it was freed. -/
structure Meta where
  rc : Nat
  target : Bool
  lock : Option Nat
  frees : Nat
  deriving DecidableEq

/-- The object's count word, how often it was finalized and freed, the metadata objects made for it, the one in
    MetadataTable, and the threads. -/
structure State where
  rc : BitVec 32
  fins : Nat
  frees : Nat
  metas : List Meta
  table : Option Nat
  threads : List Thread
  deriving DecidableEq

/-- The outcome of a step: not possible now, an access to freed memory, or the next state. -/
inductive Res where
  | stuck | fault | next (s : State)
  deriving DecidableEq

/-- Access the object's memory. -/
def onObj (s : State) (k : BitVec 32 → Res) : Res := if 0 < s.frees then .fault else k s.rc

/-- Access a metadata object's memory. -/
def onMeta (s : State) (m : Nat) (k : Meta → Res) : Res :=
  match s.metas[m]? with
  | none => .fault
  | some x => if 0 < x.frees then .fault else k x

/-- Store the stepping thread. -/
def State.put (s : State) (t : Nat) (th : Thread) : State := { s with threads := s.threads.set t th }

/-- Store a metadata object. -/
def State.putMeta (s : State) (m : Nat) (x : Meta) : State := { s with metas := s.metas.set m x }

/-- The position after DKMetadataFindOrInsert returned `m`. -/
def afterFind (m : Nat) : Use → PC
  | .retainWeak => .weakRead m
  | .release => .relLock m
  | .tryRelease => .tryLock m

/-- The lock step of a spin lock: blocked while held (DKPlatform.h 714-733). -/
def lockStep (s : State) (t : Nat) (th : Thread) (m : Nat) (pc : PC) : Res :=
  onMeta s m fun x => if x.lock = none then .next ((s.putMeta m { x with lock := some t }).put t { th with pc := pc }) else .stuck

/-- The unlock step. -/
def unlockStep (s : State) (t : Nat) (th : Thread) (m : Nat) : Res :=
  onMeta s m fun x => .next ((s.putMeta m { x with lock := none }).put t th)

/-- The decrement of a metadata object's count, freeing it at zero (84-91). -/
def metaDec (s : State) (t : Nat) (th : Thread) (m : Nat) : Res :=
  onMeta s m fun x =>
    .next ((s.putMeta m { x with rc := x.rc - 1, frees := if x.rc - 1 = 0 then x.frees + 1 else x.frees }).put t th)

/-- One step of thread `t`, which is `th`. -/
def stepPC (s : State) (t : Nat) (th : Thread) : Res :=
  match th.pc with
  | .idle => .stuck
  | .retainRead => onObj s fun rc =>
      if rc &&& disabledBit = 0 then .next (s.put t { th with pc := .retainInc })
      else .next (s.put t { th with pc := .idle, strong := th.strong + 1, last := .retained })
  | .retainInc => onObj s fun rc =>
      .next ({ s with rc := rc + 1 }.put t { th with pc := .idle, strong := th.strong + 1, last := .retained })
  | .relRead => onObj s fun rc =>
      if rc &&& disabledBit = 0 then
        if rc &&& metadataBit = 0 then .next (s.put t { th with pc := .relDec })
        else .next (s.put t { th with pc := .find .release })
      else .next (s.put t { th with pc := .idle, last := .released })
  | .relDec => onObj s fun rc =>
      if (rc - 1) &&& mask = 0 then .next ({ s with rc := rc - 1 }.put t { th with pc := .fin, last := .released })
      else .next ({ s with rc := rc - 1 }.put t { th with pc := .idle, last := .released })
  | .find u =>
      match s.table with
      | some m => .next (s.put t { th with pc := afterFind m u })
      | none => .next (s.put t { th with pc := .insert u })
  | .insert u =>
      match s.table with
      | some m => .next (s.put t { th with pc := afterFind m u })
      | none => onObj s fun rc =>
          .next ({ s with rc := rc ||| metadataBit, metas := s.metas ++ [(⟨1, true, none, 0⟩ : Meta)], table := some s.metas.length }.put t
            { th with pc := afterFind s.metas.length u })
  | .relLock m => lockStep s t th m (.relDecL m)
  | .relDecL m => onObj s fun rc =>
      if (rc - 1) &&& mask = 0 then .next ({ s with rc := rc - 1 }.put t { th with pc := .relNull m })
      else .next ({ s with rc := rc - 1 }.put t { th with pc := .relUnlock m false })
  | .relNull m => onMeta s m fun x =>
      .next ((s.putMeta m { x with target := false }).put t { th with pc := .relUnlock m true })
  | .relUnlock m zero =>
      if zero then unlockStep s t { th with pc := .remove m, last := .released } m
      else unlockStep s t { th with pc := .idle, last := .released } m
  | .tryRead => onObj s fun rc =>
      if rc &&& disabledBit = 0 then
        if rc &&& metadataBit = 0 then
          if rc &&& mask = 1 then .next (s.put t { th with pc := .tryCas rc })
          else .next (s.put t { th with pc := .idle, strong := th.strong + 1, last := .tried false })
        else .next (s.put t { th with pc := .find .tryRelease })
      else .next (s.put t { th with pc := .idle, strong := th.strong + 1, last := .tried false })
  | .tryCas old => onObj s fun rc =>
      if rc = old then .next ({ s with rc := old &&& ~~~mask }.put t { th with pc := .fin, last := .tried true })
      else .next (s.put t { th with pc := .idle, strong := th.strong + 1, last := .tried false })
  | .tryLock m => lockStep s t th m (.tryReadL m)
  | .tryReadL m => onObj s fun rc =>
      if rc &&& mask = 1 then .next (s.put t { th with pc := .tryCasL m rc })
      else .next (s.put t { th with pc := .tryUnlock m false })
  | .tryCasL m old => onObj s fun rc =>
      if rc = old then .next ({ s with rc := old &&& ~~~mask }.put t { th with pc := .tryNull m })
      else .next (s.put t { th with pc := .tryUnlock m false })
  | .tryNull m => onMeta s m fun x =>
      .next ((s.putMeta m { x with target := false }).put t { th with pc := .tryUnlock m true })
  | .tryUnlock m zero =>
      if zero then unlockStep s t { th with pc := .remove m, last := .tried true } m
      else unlockStep s t { th with pc := .idle, strong := th.strong + 1, last := .tried false } m
  | .remove m => onMeta s m fun _ => .next ({ s with table := none }.put t { th with pc := .dropRead m })
  | .dropRead m => onMeta s m fun _ => .next (s.put t { th with pc := .dropDec m })
  | .dropDec m => metaDec s t { th with pc := .fin } m
  | .fin => onObj s fun _ => .next ({ s with fins := s.fins + 1 }.put t { th with pc := .dealloc })
  | .dealloc => onObj s fun _ => .next ({ s with frees := s.frees + 1 }.put t { th with pc := .idle })
  | .weakRead m => onMeta s m fun _ => .next (s.put t { th with pc := .weakInc m })
  | .weakInc m => onMeta s m fun x =>
      .next ((s.putMeta m { x with rc := x.rc + 1 }).put t { th with pc := .idle, weak := m :: th.weak, last := .weak m })
  | .resLock m => lockStep s t th m (.resRead m)
  | .resRead m => onMeta s m fun x =>
      if x.target then .next (s.put t { th with pc := .resRetain m }) else .next (s.put t { th with pc := .resUnlock m false })
  | .resRetain m => onObj s fun rc =>
      if rc &&& disabledBit = 0 then .next (s.put t { th with pc := .resInc m })
      else .next (s.put t { th with pc := .resUnlock m true })
  | .resInc m => onObj s fun rc => .next ({ s with rc := rc + 1 }.put t { th with pc := .resUnlock m true })
  | .resUnlock m target =>
      if target then unlockStep s t { th with pc := .idle, strong := th.strong + 1, last := .resolved true } m
      else unlockStep s t { th with pc := .idle, last := .resolved false } m
  | .wrelRead m => onMeta s m fun _ => .next (s.put t { th with pc := .wrelDec m })
  | .wrelDec m => metaDec s t { th with pc := .idle, last := .weakReleased } m

/-- The calls a client makes; each uses a reference the calling thread owns.  `release`, `tryRelease` and `releaseWeak`
    hand the reference over to the call; `give` passes a strong reference to another thread. -/
inductive Call where
  | retain | release | tryRelease | retainWeak | resolveWeak (m : Nat) | releaseWeak (m : Nat)
  deriving DecidableEq

/-- What happens next: a thread starts a call, a thread takes a step, or one thread hands a reference to another. -/
inductive Label where
  | call (t : Nat) (c : Call)
  | go (t : Nat)
  | give (t u : Nat)
  | giveWeak (t u : Nat) (m : Nat)
  deriving DecidableEq

/-- Start a call. -/
def startCall (s : State) (t : Nat) (th : Thread) : Call → Res
  | .retain => if 0 < th.strong then .next (s.put t { th with pc := .retainRead }) else .stuck
  | .release => if 0 < th.strong then .next (s.put t { th with pc := .relRead, strong := th.strong - 1 }) else .stuck
  | .tryRelease => if 0 < th.strong then .next (s.put t { th with pc := .tryRead, strong := th.strong - 1 }) else .stuck
  | .retainWeak => if 0 < th.strong then .next (s.put t { th with pc := .find .retainWeak }) else .stuck
  | .resolveWeak m => if m ∈ th.weak then .next (s.put t { th with pc := .resLock m }) else .stuck
  | .releaseWeak m => if m ∈ th.weak then .next (s.put t { th with pc := .wrelRead m, weak := th.weak.erase m }) else .stuck

/-- One transition. -/
def step (s : State) : Label → Res
  | .call t c =>
      match s.threads[t]? with
      | none => .stuck
      | some th => if th.pc = .idle then startCall s t th c else .stuck
  | .go t =>
      match s.threads[t]? with
      | none => .stuck
      | some th => stepPC s t th
  | .give t u =>
      match s.threads[t]?, s.threads[u]? with
      | some a, some b =>
          if t ≠ u ∧ a.pc = .idle ∧ 0 < a.strong then
            .next ((s.put t { a with strong := a.strong - 1 }).put u { b with strong := b.strong + 1 })
          else .stuck
      | _, _ => .stuck
  | .giveWeak t u m =>
      match s.threads[t]?, s.threads[u]? with
      | some a, some b =>
          if t ≠ u ∧ a.pc = .idle ∧ m ∈ a.weak then
            .next ((s.put t { a with weak := a.weak.erase m }).put u { b with weak := m :: b.weak })
          else .stuck
      | _, _ => .stuck

/-- A new object, owned once by thread 0 of `n + 1` threads (DKAllocObject, DKRuntime.c 537-544); `word` is its initial count. -/
def start (word : BitVec 32) (n : Nat) : State :=
  ⟨word, 0, 0, [], none, ⟨1, [], .idle, .none⟩ :: List.replicate n ⟨0, [], .idle, .none⟩⟩

/-- The states reachable by transitions that `ok` permits. -/
inductive Reach (ok : State → Label → Prop) (s₀ : State) : State → Prop where
  | refl : Reach ok s₀ s₀
  | step {s s' : State} {l : Label} : Reach ok s₀ s → ok s l → RefCount.step s l = .next s' → Reach ok s₀ s'

end RefCount
end Duck
