import Verif.Model.ThreadCtx
/-! What thread contexts are for: every thread has its own thread object, its own dictionary and its own pools. -/
namespace Duck
namespace ThreadCtx

/-- What a thread that uses Duck has: its thread object, if it was asked for, its dictionary, and how many pools are pushed. -/
structure Life where
  thread : Option Nat
  dict : Nat → Option Nat
  depth : Nat

/-- The threads that use Duck, and how many thread objects there have been. -/
structure World where
  life : Nat → Option Life
  threads : Nat

def World.set (w : World) (t : Nat) (l : Option Life) : World := { w with life := fun u => if u = t then l else w.life u }

/-- Thread 0 is the main thread. -/
def World.init : World := ⟨fun t => if t = 0 then some ⟨some 0, fun _ => none, 0⟩ else none, 1⟩

/-- A call and its result. -/
inductive Step : World → Nat → Call → Out → World → Prop
  | begin {w t} : t ≠ 0 → w.life t = none →
      Step w t .begin .unit { w.set t (some ⟨some w.threads, fun _ => none, 1⟩) with threads := w.threads + 1 }
  | attach {w t} : t ≠ 0 → w.life t = none → Step w t .attach .unit (w.set t (some ⟨none, fun _ => none, 0⟩))
  | finish {w t l} : w.life t = some l → l.depth = 1 → Step w t .finish .unit (w.set t none)
  | detach {w t l} : w.life t = some l → l.depth = 0 → Step w t .detach .unit (w.set t none)
  | free {w t l} : w.life t = some l → l.depth = 0 → Step w t .free .unit (w.set t none)
  | exit {w t} : (∀ l, w.life t = some l → l.depth = 0) → Step w t .exit .unit (w.set t none)
  | known {w t l o} : w.life t = some l → l.thread = some o → Step w t .current (.thread o) w
  | fresh {w t l} : w.life t = some l → l.thread = none →
      Step w t .current (.thread w.threads) { w.set t (some { l with thread := some w.threads }) with threads := w.threads + 1 }
  | main {w t l o} : w.life 0 = some l → l.thread = some o → Step w t .main (.thread o) w
  | put {w t l k v} : w.life t = some l →
      Step w t (.put k v) .unit (w.set t (some { l with dict := fun j => if j = k then some v else l.dict j }))
  | get {w t l k} : w.life t = some l → Step w t (.get k) (.value (l.dict k)) w
  | autorelease {w t l v} : w.life t = some l → Step w t (.autorelease v) .unit w
  | push {w t l} : w.life t = some l → Step w t .push .unit (w.set t (some { l with depth := l.depth + 1 }))
  | pop {w t l n} : w.life t = some l → l.depth = n + 1 → Step w t .pop .unit (w.set t (some { l with depth := n }))

/-- A history and its results. -/
inductive Run : World → List (Nat × Call) → List Out → World → Prop
  | nil {w} : Run w [] [] w
  | cons {w t c o w1 h os w2} : Step w t c o w1 → Run w1 h os w2 → Run w ((t, c) :: h) (o :: os) w2

end ThreadCtx
end Duck
