/-
The OTLP receiver of `weaver registry live-check` and how it is stopped: src/registry/otlp/mod.rs, otlp_ingester.rs and the
end of src/registry/live_check.rs, as a transition system. Threads, tasks, clients and signals take their steps in any order.

Not modelled: the TCP and HTTP servers themselves (a response counts as given once its handler returns), poisoned locks,
failures of the live check of a sample.
-/
namespace Verif.Receiver

/-- otlp/mod.rs:274-284 `OtlpRequest`: what goes through the channel. The requests of the four services are `data`; the four
reasons to stop (mod.rs:286-297) are one. -/
inductive Item (α : Type) where
  | data (a : α)
  | stop
  | error
deriving DecidableEq, Repr

/-- What the receiving end of the `oneshot` channel of a `/stop` request holds: nothing yet, the report, or the news that the
sending end was dropped. -/
inductive Inbox where
  | empty
  | report
  | dropped
deriving DecidableEq, Repr

/-- The responses of `/stop` (mod.rs:492-525): 200 without and with the report, 500 and 504. -/
inductive Answer where
  | ok
  | report
  | failed
  | timeout
deriving DecidableEq, Repr

/-- Where a `/stop` request is in `stop_handler` (mod.rs:483-527): before its `send`, waiting for the report, answered, or
dropped because its client has gone. -/
inductive Phase where
  | sending
  | waiting
  | answered (a : Answer)
  | gone
deriving DecidableEq, Repr

/-- A `/stop` request. `waits`: it saw `expects_report` (mod.rs:484). -/
structure Handler where
  waits : Bool
  phase : Phase := .sending
  inbox : Inbox := .empty
deriving DecidableEq, Repr

/-- How the command ends: the report was handed to a `/stop` request (live_check.rs:461-466), it was printed
(live_check.rs:467-476), or rendering it failed (live_check.rs:429-460). -/
inductive Out where
  | handed
  | printed
  | failed
deriving DecidableEq, Repr

/-- Where the command is: before live_check.rs:336, in the loop over the samples, after it, rendering the report for a
`/stop` request, waiting for the admin server, done. -/
inductive Main where
  | starting
  | receiving
  | finished
  | rendering
  | waiting
  | done (o : Out)
deriving DecidableEq, Repr

/-- The state of the process. `queue` is the channel of mod.rs:340; `closed`: its receiving end was dropped, with the
iterator, at the end of the loop; `monitor`: the inactivity monitor runs; `activity`: the receiving end of the activity
channel is there (it is owned by the monitor, if there is one: mod.rs:387-394, 609-636). `slot`, `trigger` and `adminDone` are
the fields of the `ShutdownCoordinator` (mod.rs:67-81): the request whose sender is in the slot, whether the admin server was
told to shut down, and whether it has said that it did. `got` are the requests the command has taken from the channel to
check.
`sent` and `acked` are not part of the program: everything that was ever put into the channel, and the requests whose
senders were told that they were received. -/
structure St (α : Type) where
  queue : List (Item α) := []
  closed : Bool := false
  monitor : Bool := false
  activity : Bool := true
  got : List α := []
  main : Main := .starting
  expect : Bool := false
  slot : Option Nat := none
  handlers : List Handler := []
  trigger : Bool := false
  adminDone : Bool := false
  sent : List (Item α) := []
  acked : List α := []
deriving DecidableEq, Repr

/-- What may happen next. -/
inductive Label (α : Type) where
  | start
  | export (a : α)
  | signal
  | inactive
  | fault
  | arrive
  | send (i : Nat)
  | answer (i : Nat)
  | timeout (i : Nat)
  | leave (i : Nat)
  | recv
  | check
  | renderFails
  | deliver
  | drain
  | drainTimeout
  | finish
deriving DecidableEq, Repr

variable {α : Type}

/-- A value is put into the channel. -/
def St.put (s : St α) (x : Item α) : St α := { s with queue := s.queue ++ [x], sent := s.sent ++ [x] }

/-- A `send` of a task: it waits while the channel is full, and does nothing if it is closed (the error is ignored:
mod.rs:413-419, 445-449, 461-465, 487-490, 518-521, 623-626). -/
def St.sendIgnoring (cap : Nat) (s : St α) (x : Item α) : Option (St α) :=
  if s.closed then some s else if s.queue.length < cap then some (s.put x) else none

/-- The request `i` gets `x`, unless it has something already. -/
def give (i : Nat) (x : Inbox) (hs : List Handler) : List Handler :=
  hs.modify i (fun h => if h.inbox = .empty then { h with inbox := x } else h)

/-- mod.rs:109-113: the sender that is in the slot is replaced, and so dropped. -/
def dropSlot (slot : Option Nat) (hs : List Handler) : List Handler :=
  match slot with
  | some i => give i .dropped hs
  | none => hs

/-- The request `i` goes on. -/
def setPhase (i : Nat) (p : Phase) (hs : List Handler) : List Handler := hs.modify i (fun h => { h with phase := p })

/-- The request is still there to receive something. -/
def Handler.alive (h : Handler) : Bool :=
  match h.phase with
  | .sending => true
  | .waiting => true
  | _ => false

/-- One step. `http`: the option `--output http`; `cap`: the size of the channel (100 in mod.rs:340).

* `start`: live_check.rs:335-338 (`listen_otlp_requests` has returned, so the servers run before this).
* `export`: mod.rs:651-751: a client sends a request and is told that it was received. When the channel of the activity or
  the one of the requests is closed it is told that it was not, and nothing happens; when the latter is full it waits.
* `signal`: mod.rs:438-468. `fault`: mod.rs:412-419. `inactive`: mod.rs:609-636 (when: see Verif.Receiver.Timer).
* `arrive`: mod.rs:484-485, 109-113: a `/stop` request. It replaces one that waits already: the sender of that one is dropped. The
  admin server accepts no requests after it was told to shut down.
* `send`: mod.rs:487-490, 517-525. `answer`, `timeout`: mod.rs:492-516. `leave`: the client of a request closes its
  connection, and the server drops the handler.
* `recv`: otlp_ingester.rs:254-275 with mod.rs:643-649 and the loop of live_check.rs: a stop and an error end the loop, and
  the receiving end of the channel is dropped.
* `check`: live_check.rs:423-476. `deliver`: mod.rs:121-126; the report is lost if the request is no longer there.
* `drain`, `drainTimeout`: mod.rs:556-591: all requests are answered, or it takes too long. `finish`: mod.rs:151-156. -/
def step (http : Bool) (cap : Nat) (l : Label α) (s : St α) : Option (St α) :=
  match l with
  | .start => if s.main = .starting then some { s with main := .receiving, expect := http } else none
  | .export a =>
    if s.activity = false ∨ s.closed then none
    else if s.queue.length < cap then some { s.put (.data a) with acked := s.acked ++ [a] } else none
  | .signal => s.sendIgnoring cap .stop
  | .fault => s.sendIgnoring cap .error
  | .inactive =>
    if s.monitor then (s.sendIgnoring cap .stop).map (fun s => { s with monitor := false, activity := false }) else none
  | .arrive =>
    if s.trigger then none
    else if s.expect then
      some { s with handlers := dropSlot s.slot s.handlers ++ [{ waits := true }], slot := some s.handlers.length }
    else some { s with handlers := s.handlers ++ [{ waits := false }] }
  | .send i =>
    match s.handlers[i]? with
    | some h =>
      if h.phase = .sending then
        (s.sendIgnoring cap .stop).map (fun s =>
          if h.waits then { s with handlers := setPhase i .waiting s.handlers }
          else { s with handlers := setPhase i (.answered .ok) s.handlers, trigger := true })
      else none
    | none => none
  | .answer i =>
    match s.handlers[i]? with
    | some h =>
      if h.phase = .waiting then
        match h.inbox with
        | .report => some { s with handlers := setPhase i (.answered .report) s.handlers, trigger := true }
        | .dropped => some { s with handlers := setPhase i (.answered .failed) s.handlers, trigger := true }
        | .empty => none
      else none
    | none => none
  | .timeout i =>
    match s.handlers[i]? with
    | some h =>
      if h.phase = .waiting ∧ h.inbox = .empty then
        some { s with handlers := setPhase i (.answered .timeout) s.handlers, trigger := true }
      else none
    | none => none
  | .leave i =>
    match s.handlers[i]? with
    | some h => if h.alive then some { s with handlers := setPhase i .gone s.handlers } else none
    | none => none
  | .recv =>
    if s.main = .receiving then
      match s.queue with
      | .data a :: q => some { s with queue := q, got := s.got ++ [a] }
      | _ :: _ => some { s with queue := [], closed := true, main := .finished }
      | [] => none
    else none
  | .check =>
    if s.main = .finished then
      some { s with main := if http ∧ s.slot.isSome then .rendering else .done .printed }
    else none
  | .renderFails => if s.main = .rendering then some { s with main := .done .failed } else none
  | .deliver =>
    if s.main = .rendering then
      let hs := match s.slot with
        | some i => match s.handlers[i]? with
          | some h => if h.alive then give i .report s.handlers else s.handlers
          | none => s.handlers
        | none => s.handlers
      some { s with handlers := hs, slot := none, main := .waiting }
    else none
  | .drain =>
    if s.trigger ∧ s.adminDone = false ∧ s.handlers.all (fun h => !h.alive) then some { s with adminDone := true } else none
  | .drainTimeout => if s.trigger ∧ s.adminDone = false then some { s with adminDone := true } else none
  | .finish => if s.main = .waiting ∧ s.adminDone then some { s with main := .done .handed } else none

/-- The process when the command has the receiver. mod.rs:387-394: with an inactivity timeout there is a monitor.
mod.rs:545-603: if the port of the admin server cannot be used, there is no admin server, and an error is in the channel. -/
def init (timeout admin : Bool) : St α :=
  if admin then { monitor := timeout } else { monitor := timeout, trigger := true, queue := [.error], sent := [.error] }

/-- A run: the steps `ls`, one after the other. -/
def run (http : Bool) (cap : Nat) (s : St α) : List (Label α) → Option (St α)
  | [] => some s
  | l :: ls => (step http cap l s).bind (fun s' => run http cap s' ls)

end Verif.Receiver
