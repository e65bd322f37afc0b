/-! Model of DKThreadPool.c: a pool of worker threads that execute tasks, as a transition system over all interleavings.

    The data of a pool is only used while `queueMutex` is held (`threadMutex` for the list of threads), so a step of the model is what one thread does
    between two points where another thread may come in between: acquiring a mutex, reading or changing the state of a thread, delivering a signal.
    A worker holds `queueMutex` from `acquire` to the end of `next` (or of `check`, if it was cancelled).  Tasks are identified by a number given when they
    are added; what they do is not modelled.  `pendingTasks`, `idleThreads` and the semaphore are not bounded by 2^31.
    The memory of tasks and queues (DKNodePool) is modelled in NodePool.lean. -/
namespace Duck
namespace Pool

inductive Kind where
  | task
  | completion
deriving DecidableEq, Repr

/-- struct DKThreadPoolTask (DKThreadPool.c 51-63).  `id`, `kind` and `owner` (the group whose queue it was put in) are not in the code and never looked
    at by it. -/
structure Task where
  id : Nat
  kind : Kind
  owner : Nat
  taskGroup : Nat
deriving DecidableEq, Repr

/-- struct DKThreadPoolQueue (DKThreadPool.c 65-75). -/
structure Queue where
  tasks : List Task
  completions : List Task
  taskGroup : Nat
  pendingTasks : Int
  closed : Bool
deriving DecidableEq, Repr

/-- DKThreadState (DKThread.h 38-47) of a thread that was started. -/
inductive TState where
  | started
  | running
  | cancelled
  | finished
deriving DecidableEq, Repr

/-- Where a worker is in DKThreadExec and DKThreadPoolExec or DKThreadPoolRealTimeExec. -/
inductive Pc where
  /-- the native thread exists (DKThread.c 484) -/
  | born
  /-- about to lock the mutex for the first time (559, 622) -/
  | enter
  /-- has the mutex, about to test the loop condition (561, 624) -/
  | top
  /-- has the mutex, was not cancelled (563, 626) -/
  | next
  /-- executes a task without the mutex (569, 645) -/
  | running (t : Task)
  /-- the task has returned; about to lock the mutex (571, 647) -/
  | done (t : Task)
  /-- in DKConditionWait (581, 706); the flag tells whether it has been woken -/
  | waiting (woken : Bool)
  /-- sleeps or yields without the mutex (668-699) -/
  | napping
  /-- has left the loop and the mutex (587, 716) -/
  | leaving
  /-- has returned -/
  | gone
deriving DecidableEq, Repr

/-- A worker thread with the local variables of DKThreadPoolRealTimeExec (613-615).  In DKThreadPoolExec `idle` says that the worker is counted in
    `idleThreads`. -/
structure Worker where
  pc : Pc
  state : TState
  idle : Bool
  standby : Bool
  cooldown : Bool
deriving DecidableEq, Repr

/-- What happened, for stating properties. -/
inductive Event where
  | added (t : Task)
  | started (t : Task)
  | finished (t : Task)
  /-- DKThreadPoolWaitForTasks returned -/
  | waited (group : Nat)
  /-- DKThreadPoolWaitUntilIdle returned, or DKThreadPoolIsIdle returned true -/
  | idled
  /-- DKThreadPoolRemoveAllTasks was called -/
  | removed
deriving DecidableEq, Repr

/-- Where DKThreadPoolStop is: cancelling the remaining threads, or waiting for the semaphore. -/
inductive StopPc where
  | cancelling (rest : List Nat)
  | waiting
deriving DecidableEq, Repr

/-- struct DKThreadPool (DKThreadPool.c 77-106); `lock` is the worker that has `queueMutex`, `stopper` tells where the thread is that called
    DKThreadPoolStop and holds `threadMutex`, `signals` counts the calls of DKConditionSignal( workAvailableCondition ) about to be made. -/
structure Pool where
  realtime : Bool
  queues : List Queue
  nextTaskGroup : Nat
  idleThreads : Int
  standbyThreads : Nat
  stopCounter : Int
  threads : List Nat
  lock : Option Nat
  stopper : Option StopPc
  signals : Nat
  workers : List Worker
  nextId : Nat
  log : List Event
deriving DecidableEq, Repr

/-- DKThreadPoolInit (DKThreadPool.c 126-149), and DKThreadPoolSetScheduling. -/
def init (realtime : Bool) : Pool := ⟨realtime, [], 0, 0, 0, 0, [], none, none, 0, [], 0, []⟩

/-- DKThreadPoolAllocQueue (DKThreadPool.c 274-287) for the last place in the list (349, 367). -/
def newQueue (p : Pool) : Pool :=
  { p with queues := p.queues ++ [⟨[], [], p.nextTaskGroup + 1, 0, false⟩], nextTaskGroup := p.nextTaskGroup + 1 }

/-- DKThreadPoolGetOpenQueue (DKThreadPool.c 335-369): afterwards the last queue is open. -/
def openQueue (p : Pool) : Pool :=
  match p.queues.getLast? with
  | none => newQueue p
  | some q => if q.closed then newQueue p else p

/-- Changes the last queue. -/
def onLast (f : Queue → Queue) (qs : List Queue) : List Queue :=
  match qs.getLast? with
  | none => []
  | some q => qs.dropLast ++ [f q]

/-- The group of the last queue; 0 without queues (DKThreadPoolGetCurrentTaskGroup, DKThreadPool.c 839-856). -/
def lastGroup (qs : List Queue) : Nat :=
  match qs.getLast? with
  | none => 0
  | some q => q.taskGroup

/-- The group that DKThreadPoolWaitForCurrentTasks waits for (DKThreadPool.c 931-934); with 0 it returns at once (905). -/
def currentGroup (p : Pool) : Nat := lastGroup p.queues

/-- DKThreadPoolScheduleTask (DKThreadPool.c 399-414) on the last queue. -/
def scheduleTask (p : Pool) : Pool :=
  let t : Task := ⟨p.nextId, .task, lastGroup p.queues, lastGroup p.queues⟩
  { p with queues := onLast (fun q => { q with tasks := q.tasks ++ [t], pendingTasks := q.pendingTasks + 1 }) p.queues,
           nextId := p.nextId + 1, log := p.log ++ [.added t] }

/-- DKThreadPoolScheduleCompletion (DKThreadPool.c 420-434). -/
def scheduleCompletion (p : Pool) : Pool :=
  let t : Task := ⟨p.nextId, .completion, lastGroup p.queues, 0⟩
  { p with queues := onLast (fun q => { q with completions := q.completions ++ [t], closed := true }) p.queues,
           nextId := p.nextId + 1, log := p.log ++ [.added t] }

/-- The signal after adding, with default scheduling (DKThreadPool.c 953-954, 1003-1004). -/
def willSignal (p : Pool) : Pool := if p.realtime then p else { p with signals := p.signals + 1 }

/-- DKThreadPoolAddTask (DKThreadPool.c 940-958) up to the signal. -/
def addTask (p : Pool) : Pool := willSignal (scheduleTask (openQueue p))

/-- DKThreadPoolAddCompletion (DKThreadPool.c 988-1016) up to the signal; without queues the completion is executed by the caller, here in one step. -/
def addCompletion (p : Pool) : Pool :=
  if p.queues.isEmpty then
    { p with nextId := p.nextId + 1,
             log := p.log ++ [.added ⟨p.nextId, .completion, 0, 0⟩, .started ⟨p.nextId, .completion, 0, 0⟩, .finished ⟨p.nextId, .completion, 0, 0⟩] }
  else willSignal (scheduleCompletion p)

/-- DKThreadPoolGetNextTask (DKThreadPool.c 440-505): the queues left and the task. -/
def getNextTask : List Queue → List Queue × Option Task
  | [] => ([], none)
  | q :: qs =>
    match q.tasks with
    | t :: ts => ({ q with tasks := ts } :: qs, some t)
    | [] =>
      if q.pendingTasks = 0 then
        match q.completions with
        | c :: cs => ({ q with completions := cs } :: qs, some c)
        | [] => getNextTask qs
      else (q :: (getNextTask qs).1, (getNextTask qs).2)

/-- DKThreadPoolCompleteTask (DKThreadPool.c 528-543); `none` is a NULL pointer dereferenced (538) or a failed DKRequire (539). -/
def completeTask (qs : List Queue) (t : Task) : Option (List Queue) :=
  if t.taskGroup = 0 then some qs
  else match qs.find? fun q => q.taskGroup = t.taskGroup with
    | none => none
    | some q => if q.pendingTasks - 1 < 0 then none
                else some (qs.map fun q => if q.taskGroup = t.taskGroup then { q with pendingTasks := q.pendingTasks - 1 } else q)

/-- A new worker thread (DKThreadPool.c 742-764, DKThread.c 467-496). -/
def newWorker : Worker := ⟨.born, .started, false, false, false⟩

/-- The steps: what a caller does, and what worker `w` does. -/
inductive Action where
  | addTask
  | addCompletion
  | signal (w : Nat)
  | signalNobody
  | removeAll
  | waitFor (group : Nat)
  | waitIdle
  | start (n : Nat)
  | stop
  | stopCancel
  | stopSignal
  | stopEnd
  | begin (w : Nat)
  | acquire (w : Nat)
  | check (w : Nat)
  | next (w : Nat)
  | finish (w : Nat)
  | spurious (w : Nat)
  | exit (w : Nat)
deriving DecidableEq, Repr

/-- The result of a step. -/
inductive Res where
  | ok (p : Pool)
  | crash
deriving DecidableEq, Repr

def setWorker (p : Pool) (i : Nat) (w : Worker) : Pool := { p with workers := p.workers.set i w }

/-- Waking a worker that waits for work. -/
def wake (w : Worker) : Worker := if w.pc = .waiting false then { w with pc := .waiting true } else w

/-- The worker gets the mutex and does what comes before the test of the loop condition (DKThreadPool.c 559, 571-573, 581-583; 622, 647-651, 699-701, 706). -/
def acquire (p : Pool) (i : Nat) (w : Worker) : Option Res :=
  if p.lock.isSome then none
  else match w.pc with
  | .enter => some (.ok (setWorker { p with lock := some i } i { w with pc := .top }))
  | .napping => some (.ok (setWorker { p with lock := some i } i { w with pc := .top, cooldown := false }))
  | .waiting true =>
    if p.realtime then some (.ok (setWorker { p with lock := some i } i { w with pc := .top }))
    else some (.ok (setWorker { p with lock := some i, idleThreads := p.idleThreads - 1 } i { w with pc := .top, idle := false }))
  | .done t =>
    match completeTask p.queues t with
    | none => some .crash
    | some qs => some (.ok (setWorker { p with lock := some i, queues := qs } i { w with pc := .top, cooldown := p.realtime }))
  | _ => none

/-- The test of the loop condition, and what follows when the thread was cancelled (DKThreadPool.c 561, 587; 624, 711-716). -/
def check (p : Pool) (i : Nat) (w : Worker) : Option Pool :=
  match w.pc with
  | .top =>
    if w.state = .cancelled then
      some (setWorker { p with lock := none, idleThreads := if w.idle then p.idleThreads - 1 else p.idleThreads } i { w with pc := .leaving, idle := false })
    else some (setWorker p i { w with pc := .next })
  | _ => none

/-- The worker starts the task (DKThreadPool.c 567; 630-643). -/
def startTask (p : Pool) (i : Nat) (w : Worker) (t : Task) : Pool :=
  setWorker { p with lock := none,
                     idleThreads := if w.idle then p.idleThreads - 1 else p.idleThreads,
                     standbyThreads := if w.standby then 0 else p.standbyThreads,
                     signals := if w.standby then p.signals + 1 else p.signals,
                     log := p.log ++ [.started t] } i { w with pc := .running t, idle := false, standby := false }

/-- The worker found nothing, default scheduling (DKThreadPool.c 578-581). -/
def rest (p : Pool) (i : Nat) (w : Worker) : Pool :=
  setWorker { p with lock := none, idleThreads := p.idleThreads + 1 } i { w with pc := .waiting false, idle := true }

/-- The worker goes on after it is counted as idle, real time scheduling (DKThreadPool.c 666-707). -/
def restRealTime (p : Pool) (i : Nat) (w : Worker) : Pool :=
  setWorker { p with lock := none } i { w with pc := if w.standby || w.cooldown then .napping else .waiting false }

/-- The worker found nothing, real time scheduling (DKThreadPool.c 656-707). -/
def idleRealTime (p : Pool) (i : Nat) (w : Worker) : Pool :=
  if w.idle then restRealTime p i w
  else if p.standbyThreads = 0 then
    restRealTime { p with idleThreads := p.idleThreads + 1, standbyThreads := 1 } i { w with idle := true, standby := true }
  else restRealTime { p with idleThreads := p.idleThreads + 1 } i { w with idle := true }

/-- The body of the loop up to the point where the mutex is released (DKThreadPool.c 563-581; 626-706). -/
def next (p : Pool) (i : Nat) (w : Worker) : Option Pool :=
  match w.pc with
  | .next =>
    match (getNextTask p.queues).2 with
    | some t => some (startTask { p with queues := (getNextTask p.queues).1 } i w t)
    | none => some (if p.realtime then idleRealTime { p with queues := (getNextTask p.queues).1 } i w else rest { p with queues := (getNextTask p.queues).1 } i w)
  | _ => none

/-- The task returns (DKThreadPool.c 569, 645). -/
def finish (p : Pool) (i : Nat) (w : Worker) : Option Pool :=
  match w.pc with
  | .running t => some (setWorker { p with log := p.log ++ [.finished t] } i { w with pc := .done t })
  | _ => none

/-- DKSemaphoreDecrement( stopCounter, 1 ) and the end of DKThreadExec (DKThreadPool.c 594, 723; DKSemaphore.c 146; DKThread.c 447-449). -/
def exit (p : Pool) (i : Nat) (w : Worker) : Option Res :=
  match w.pc with
  | .leaving =>
    if p.stopCounter < 1 then some .crash
    else some (.ok (setWorker { p with stopCounter := p.stopCounter - 1 } i { w with pc := .gone, state := .finished }))
  | _ => none

/-- DKThreadCancel (DKThread.c 533-554). -/
def cancel (w : Worker) : Worker := if w.state = .started ∨ w.state = .running then { w with state := .cancelled } else w

/-- DKThreadPoolWaitForTasks between two waits (DKThreadPool.c 907-920).  (The DKAssert in 912 is not in release builds.) -/
def waitFor (p : Pool) (g : Nat) : Pool :=
  if p.queues.any (fun q => q.taskGroup = g) then
    { p with queues := p.queues.map fun q => if q.taskGroup = g then { q with closed := true } else q }
  else { p with log := p.log ++ [.waited g] }

/-- One step; `none` if it cannot be taken. -/
def act (p : Pool) : Action → Option Res
  | .addTask => if p.lock.isSome then none else some (.ok (addTask p))
  | .addCompletion => if p.lock.isSome then none else some (.ok (addCompletion p))
  | .signal i => (p.workers[i]?).bind fun w =>
      if 0 < p.signals ∧ w.pc = .waiting false then some (.ok (setWorker { p with signals := p.signals - 1 } i (wake w))) else none
  | .signalNobody =>
      if 0 < p.signals ∧ p.workers.all (fun w => w.pc ≠ .waiting false) then some (.ok { p with signals := p.signals - 1 }) else none
  | .removeAll => if p.lock.isSome then none else some (.ok { p with queues := [], log := p.log ++ [.removed] })
  | .waitFor g => if p.lock.isSome then none else some (.ok (waitFor p g))
  | .waitIdle =>
      if p.lock.isSome ∨ p.stopper.isSome ∨ p.idleThreads < p.threads.length then none else some (.ok { p with log := p.log ++ [.idled] })
  | .start n =>
      if p.stopper.isSome then none
      else some (.ok { p with workers := p.workers ++ List.replicate (n - p.threads.length) newWorker,
                              threads := p.threads ++ List.range' p.workers.length (n - p.threads.length) })
  | .stop =>
      if p.stopper.isSome then none
      else some (.ok { p with stopCounter := p.stopCounter + p.threads.length, stopper := some (.cancelling p.threads) })
  | .stopCancel =>
      match p.stopper with
      | some (.cancelling (i :: is)) => some (.ok { p with workers := p.workers.modify i cancel, stopper := some (.cancelling is) })
      | _ => none
  | .stopSignal =>
      match p.stopper with
      | some (.cancelling []) => some (.ok { p with workers := p.workers.map wake, stopper := some .waiting })
      | _ => none
  | .stopEnd =>
      match p.stopper with
      | some .waiting => if p.stopCounter = 0 then some (.ok { p with threads := [], stopper := none }) else none
      | _ => none
  | .begin i => (p.workers[i]?).bind fun w =>
      if w.pc = .born then some (.ok (setWorker p i { w with pc := .enter, state := .running })) else none
  | .acquire i => (p.workers[i]?).bind (acquire p i)
  | .check i => (p.workers[i]?).bind fun w => (check p i w).map .ok
  | .next i => (p.workers[i]?).bind fun w => (next p i w).map .ok
  | .finish i => (p.workers[i]?).bind fun w => (finish p i w).map .ok
  | .spurious i => (p.workers[i]?).bind fun w => if w.pc = .waiting false then some (.ok (setWorker p i (wake w))) else none
  | .exit i => (p.workers[i]?).bind (exit p i)

/-- The pools that can come about. -/
inductive Reach (realtime : Bool) : Pool → Prop
  | init : Reach realtime (init realtime)
  | step {p a p'} : Reach realtime p → act p a = some (.ok p') → Reach realtime p'

end Pool
end Duck
