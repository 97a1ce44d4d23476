import Verif.Sched.Props

/-!
# What the scheduler does *not* guarantee

Concrete histories of the modelled code in which a property one would expect of `task_scheduler.py` fails.  They delimit the theorems of
this directory: each says which hypothesis of a general theorem cannot be dropped.  All are evaluated by the kernel.
-/
namespace IPP.Sched.Violations

/-- scheme `leastload` -/
def cfg (h : Nat) : Config := { hwm := h, pick := fun _ l => leastload l }

/-- Tasks in the order in which they were sent. -/
def sentIds (tr : List Obs) : List MsgId := tr.filterMap fun
  | .send _ m => some m
  | _ => none

/-- C23: three tasks for the same engine, identical in every respect but their ids: task 3 is sent before task 2, because
`queue.extendleft(to_restore)` (task_scheduler.py:763) puts the tasks that stay in the queue back in reverse order. -/
theorem fifo_violated :
    sentIds (run (cfg 1) [.register 7, .register 8, .submit 1 { targets := [7] }, .submit 2 { targets := [7] }, .submit 3 { targets := [7] }, .submit 4 {},
      .result 8 4 true true, .result 7 1 true true]).trace = [1, 4, 3] := by decide

/-- C19: with hwm = 0 a task with a dependency is sent through the `graph` path while it stays in `queue`; when an engine registers it is sent
a second time (task_scheduler.py:715-719, 741: only `queue_map` is cleaned). -/
theorem sent_twice :
    let tr := (run (cfg 0) [.register 7, .submit 1 {}, .submit 2 { after := some { ids := [1] } }, .result 7 1 true true, .register 8]).trace
    Obs.send 7 2 ∈ tr ∧ Obs.send 8 2 ∈ tr ∧ 2 ∈ assigned 7 tr ∧ 2 ∈ assigned 8 tr := by decide

/-- … the task is executed twice; the second reply is dropped (`self.retries[msg_id]`, KeyError) and the task stays pending on that engine forever. -/
theorem executed_twice :
    let s := run (cfg 0) [.register 7, .submit 1 {}, .submit 2 { after := some { ids := [1] } }, .result 7 1 true true, .register 8,
      .result 7 2 true true, .result 8 2 true true]
    replies 2 s.trace = 1 ∧ s.pending 8 = some [2] ∧ assigned 8 s.trace = [] := by decide

/-- C21/C19: a task with an invalid dependency next to a known one gets no reply and is not in the queue: `fail_unreachable` removes it from
`graph[1]`, which belongs to another task: KeyError (task_scheduler.py:464-466). -/
theorem invalid_dependency_lost :
    let s := run (cfg 1) [.register 7, .submit 1 {}, .submit 2 { after := some { ids := [1] } }, .submit 3 { after := some { ids := [1, 99] } }]
    replies 3 s.trace = 0 ∧ 3 ∉ s.queueMap ∧ 3 ∉ s.queue ∧ ∀ e ∈ s.targets, 3 ∉ assigned e s.trace := by decide

/-- C21: task 2 depends on 1, task 3 on 2; task 1 fails, so 2 is impossible and is answered, but 3 is not answered although both engines are
idle: while 2 is failed, 3 is in the `to_restore` list of the outer loop, where the inner `update_graph` does not see it. -/
theorem impossible_not_transitive :
    let s := run (cfg 1) [.register 7, .submit 1 {}, .submit 2 { after := some { ids := [1] } }, .submit 3 { after := some { ids := [2] } }, .register 8,
      .result 7 1 false true]
    Obs.fail 2 .impossible ∈ s.trace ∧ replies 3 s.trace = 0 ∧ 3 ∈ s.queueMap ∧ s.loads = [0, 0] := by decide

/-- C19: `destinations` has no entry for a task the scheduler failed itself, so a task that follows such a task and a finished one is lost with a
KeyError (task_scheduler.py:537-538). -/
theorem follow_failed_lost :
    let s := run (cfg 1) [.register 7, .submit 1 { targets := [99] }, .submit 2 {}, .submit 3 { follow := { ids := [1, 2], failure := true } },
      .result 7 2 true true]
    Obs.fail 1 .impossible ∈ s.trace ∧ replies 3 s.trace = 0 ∧ 3 ∉ s.queue ∧ ∀ e ∈ s.targets, 3 ∉ assigned e s.trace := by decide

/-- C19: a task that needs *any* of two tasks and has a target is lost when it fails there: it started while task 2 was still running, so it is no longer in
`graph[2]`, but `fail_unreachable` removes it from there once more: KeyError (task_scheduler.py:464-466, 742-744). -/
theorem any_target_lost :
    let s := run (cfg 1) [.register 7, .register 8, .submit 1 { targets := [7] }, .submit 2 { targets := [8] },
      .submit 3 { targets := [7], after := some { ids := [1, 2], all := false }, retries := 1 }, .submit 4 { after := some { ids := [2] } },
      .result 7 1 true true, .result 7 3 false true]
    Obs.send 7 3 ∈ s.trace ∧ replies 3 s.trace = 0 ∧ 3 ∉ s.queue ∧ ∀ e ∈ s.targets, 3 ∉ assigned e s.trace := by decide

/-- A task without targets that failed on every engine, with retries left, waits for an engine that has not seen it; it is not failed. -/
theorem blacklisted_waits :
    let s := run (cfg 1) [.register 7, .submit 1 { retries := 3 }, .result 7 1 false true]
    replies 1 s.trace = 0 ∧ 1 ∈ s.queueMap ∧ s.loads = [0] := by decide

/-- C19: a reply that arrives after the scheduler has given the engine up is relayed although the task is in the queue again: two replies. -/
theorem late_reply_twice :
    replies 1 (run (cfg 1) [.register 7, .submit 1 { retries := 3, hasTimeout := true }, .unregister 7, .strandTimer 7, .result 7 1 true true,
      .jobTimer 1 1]).trace = 2 := by decide

/-- C56: with dependencies an engine may idle although a task could run: while `update_graph` goes through the queue, task 2 turns out to be impossible (its
only target is not there) and is failed, which makes task 3 ready; but task 3 was already looked at and sits in the local `to_restore`, where the nested
`update_graph` (task_scheduler.py:488, 722) does not find it.  Both engines are free and task 3, which may run anywhere, stays in the queue
(the entry of task 2 there is a dead one). -/
theorem engine_idles :
    let s := run (cfg 1) [.register 10, .submit 1 {}, .submit 2 { targets := [12], after := some { ids := [1] } },
      .submit 3 { after := some { ids := [2], success := false, failure := true } }, .register 11, .result 10 1 true true]
    Obs.fail 2 .impossible ∈ s.trace ∧ assigned 10 s.trace = [] ∧ assigned 11 s.trace = [] ∧ s.targets = [11, 10] ∧
    s.queue = [2, 3] ∧ sends 3 s.trace = 0 ∧ replies 3 s.trace = 0 := by decide

/-- C21: a task whose only target is gone waits for ever: the queue is not looked at again when the engine goes (task_scheduler.py:308-326), and the
stranded tasks' failures look at it only if an engine was full (task_scheduler.py:692-700).  The other engine is idle. -/
theorem gone_target_waits :
    let s := run (cfg 2) [.register 7, .register 8, .submit 1 { targets := [7] }, .submit 2 { targets := [7] }, .submit 3 { targets := [7] },
      .unregister 7, .strandTimer 7]
    replies 3 s.trace = 0 ∧ 3 ∈ s.queueMap ∧ s.targets = [8] ∧ s.loads = [0] := by decide

end IPP.Sched.Violations
