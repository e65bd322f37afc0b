import Verif.Model.ThreadPool
/-! The references a thread pool takes to the target and the parameter of its tasks (Source/DKThreadPool.c 155-171, 212-268, 293-310,
    511-543, 964-982, 1022-1067), added to the steps of Model/ThreadPool.lean. -/
namespace Duck
namespace Pool

/-- The tasks whose objects are retained by a step: those put in a queue (DKThreadPoolAllocObjectTask, 231-245, DKThreadPoolAddTaskMethod, 964-982,
    DKThreadPoolAddCompletionMethod, 1022-1050).  A completion that is
    executed by the caller (1042-1047) is not. -/
def retains (p : Pool) : Action → List Task
  | .addTask => [⟨p.nextId, .task, lastGroup (openQueue p).queues, lastGroup (openQueue p).queues⟩]
  | .addCompletion => if p.queues.isEmpty then [] else [⟨p.nextId, .completion, lastGroup p.queues, 0⟩]
  | _ => []

/-- DKThreadPoolFreeQueues (293-310): the tasks in the queues. -/
def inQueues (qs : List Queue) : List Task := qs.flatMap fun q => q.tasks ++ q.completions

/-- What DKThreadPoolCompleteTask frees (542): the task of a worker that has executed it. -/
def completes (w : Worker) : List Task :=
  match w.pc with
  | .done t => [t]
  | _ => []

/-- The tasks whose objects are released by a step (DKThreadPoolFreeTasks, 251-268): the task just completed, or all those in the queues
    when they are removed (1056-1067).  The queues DKThreadPoolGetNextTask frees (477-491) have none. -/
def releases (p : Pool) : Action → List Task
  | .removeAll => inQueues p.queues
  | .acquire i => ((p.workers[i]?).map completes).getD []
  | _ => []

/-- The pools that can come about, with the tasks whose objects were retained and released so far. -/
inductive Refs (realtime : Bool) : Pool → List Task → List Task → Prop
  | init : Refs realtime (init realtime) [] []
  | step {p a p' ret rel} : Refs realtime p ret rel → act p a = some (.ok p') → Refs realtime p' (ret ++ retains p a) (rel ++ releases p a)

end Pool
end Duck
