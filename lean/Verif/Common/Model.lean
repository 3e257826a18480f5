/-
Model of crates/weaver_common: result.rs (WResult), error.rs, diagnostic.rs, ordered_float.rs, http_auth.rs.
-/
import Verif.Util.Sort

namespace Verif.Common

/-! ## Errors and diagnostics -/

/-- miette's severity levels, as used in crates/weaver_common/src/diagnostic.rs:190-202. -/
inductive Severity | advice | warning | error
  deriving DecidableEq, Repr

/-- An error of a weaver crate: a single error with its payload and declared severity (`Diagnostic::severity`,
`none` means the default), or the `CompoundError(Vec<Error>)` variant every crate's error enum has.
Models crates/weaver_checker/src/lib.rs:106-119 (the same shape recurs in weaver_semconv, weaver_resolver,
weaver_forge, weaver_semconv_gen); the payload of a single error is abstracted to a natural number. -/
inductive Err where
  | single (id : Nat) (sev : Option Severity)
  | compound (es : List Err)

/-- `Diagnostic::severity` of an error; compound errors declare none
(crates/weaver_checker/src/lib.rs:115-118, `#[diagnostic()]`). -/
def Err.severity : Err → Option Severity
  | .single _ s => s
  | .compound _ => none

/-- `WeaverError::compound`, crates/weaver_checker/src/lib.rs:121-133: nested compounds are flattened one level. -/
def Err.mkCompound (errors : List Err) : Err :=
  .compound (errors.flatMap fun e => match e with
    | .compound es => es
    | .single i s => [.single i s])

/-- `DiagnosticMessage`, crates/weaver_common/src/diagnostic.rs:66-72, reduced to the error it was built from and the
recorded severity. -/
structure Msg where
  err : Err
  severity : Option Severity

/-- `DiagnosticMessage::new`, diagnostic.rs:87-125: in future mode the recorded severity becomes `Error`.
(The global flag `FUTURE_MODE` is a parameter.) -/
def Msg.new (future : Bool) (e : Err) : Msg :=
  { err := e, severity := if future then some .error else e.severity }

/-- `DiagnosticMessage::is_warning`, diagnostic.rs:129-131. -/
def Msg.isWarning (m : Msg) : Bool := decide (m.severity = some .warning)

/-- `DiagnosticMessages::has_error`, diagnostic.rs:192-202 (length minus the number of warnings and advices). -/
def hasError (ms : List Msg) : Bool :=
  let nonError := (ms.filter fun m => decide (m.severity = some .warning) || decide (m.severity = some .advice)).length
  decide (ms.length - nonError > 0)

mutual
/-- `From<Error> for DiagnosticMessages`, crates/weaver_checker/src/lib.rs:135-148: compounds are expanded
recursively, other errors give one message. -/
def Err.toMsgs (future : Bool) : Err → List Msg
  | .single i s => [Msg.new future (.single i s)]
  | .compound es => Err.toMsgsList future es
def Err.toMsgsList (future : Bool) : List Err → List Msg
  | [] => []
  | e :: es => e.toMsgs future ++ Err.toMsgsList future es
end

/-- `handle_errors`, crates/weaver_common/src/error.rs:29-39. `none` is `Ok(())`. -/
def handleErrors (errors : List Err) : Option Err :=
  match errors with
  | [] => none
  | [e] => some e
  | es => some (Err.mkCompound es)

/-! ## WResult (crates/weaver_common/src/result.rs) -/

/-- `WResult`, result.rs:19-28. -/
inductive WResult (T : Type) where
  | ok (t : T)
  | okWithNFEs (t : T) (es : List Err)
  | fatalErr (e : Err)

namespace WResult
variable {T U : Type}

/-- result.rs:53-55 -/
def isFatal : WResult T → Bool
  | .fatalErr _ => true
  | _ => false

/-- result.rs:58-64 -/
def hasErrors : WResult T → Bool
  | .ok _ => false
  | .okWithNFEs _ es => !es.isEmpty
  | .fatalErr _ => true

/-- result.rs:67-73 -/
def numErrors : WResult T → Nat
  | .ok _ => 0
  | .okWithNFEs _ es => es.length
  | .fatalErr _ => 1

/-- result.rs:79-88 -/
def extendNonFatalErrors (r : WResult T) (nfes : List Err) : WResult T :=
  match r with
  | .ok t => .okWithNFEs t nfes
  | .okWithNFEs t items => .okWithNFEs t (items ++ nfes)
  | .fatalErr e => .fatalErr e

/-- result.rs:91-97 -/
def withNonFatalErrors (t : T) (nfes : List Err) : WResult T :=
  if nfes.isEmpty then .ok t else .okWithNFEs t nfes

/-- result.rs:100-110; the `&mut DiagnosticMessages` argument is returned. -/
def captureNonFatalErrors (future : Bool) (r : WResult T) (diag : List Msg) : Except Err T × List Msg :=
  match r with
  | .ok t => (.ok t, diag)
  | .okWithNFEs t nfes => (.ok t, diag ++ nfes.map (Msg.new future))
  | .fatalErr e => (.error e, diag)

/-- result.rs:114-129 -/
def captureWarnings (future : Bool) (r : WResult T) (diag : List Msg) : WResult T × List Msg :=
  match r with
  | .okWithNFEs t nfes =>
    let warnings := nfes.filter fun e => decide (e.severity = some .warning)
    let errors := nfes.filter fun e => !decide (e.severity = some .warning)
    let diag := diag ++ warnings.map (Msg.new future)
    if errors.isEmpty then (.ok t, diag) else (.okWithNFEs t errors, diag)
  | r => (r, diag)

/-- result.rs:132-151 -/
def ignore (r : WResult T) (ign : Err → Bool) : WResult T :=
  match r with
  | .okWithNFEs t nfes =>
    let errors := nfes.filter fun e => !ign e
    if errors.isEmpty then .ok t else .okWithNFEs t errors
  | r => r

/-- result.rs:156-164: the observer cannot change the result. -/
def inspect (r : WResult T) : WResult T := r

/-- result.rs:168-186 -/
def intoResultFailingNonFatal (r : WResult T) : Except Err T :=
  match r with
  | .ok t => .ok t
  | .okWithNFEs t errors =>
    match errors with
    | [] => .ok t
    | [e] => .error e
    | es => .error (Err.mkCompound es)
  | .fatalErr e => .error e

/-- result.rs:190-196 -/
def intoResultWithNonFatal (r : WResult T) : Except Err (T × List Err) :=
  match r with
  | .ok t => .ok (t, [])
  | .okWithNFEs t es => .ok (t, es)
  | .fatalErr e => .error e

/-- result.rs:200-206 -/
def map (r : WResult T) (f : T → U) : WResult U :=
  match r with
  | .ok t => .ok (f t)
  | .okWithNFEs t es => .okWithNFEs (f t) es
  | .fatalErr e => .fatalErr e

end WResult

/-- One operation applied to a result under way (result.rs:79-206), for operations which keep the value type. -/
inductive ResOp (T : Type) where
  | extend (es : List Err)
  | captureWarnings
  | ignore (ign : Err → Bool)
  | inspect
  | map (f : T → T)

/-- A result under way together with the diagnostics captured so far. -/
structure ResState (T : Type) where
  res : WResult T
  diag : List Msg

/-- One step of a chain of calls on a `WResult`. -/
def ResState.step {T : Type} (future : Bool) (s : ResState T) : ResOp T → ResState T
  | .extend es => { s with res := s.res.extendNonFatalErrors es }
  | .captureWarnings => let (r, d) := s.res.captureWarnings future s.diag; { res := r, diag := d }
  | .ignore ign => { s with res := s.res.ignore ign }
  | .inspect => { s with res := s.res.inspect }
  | .map f => { s with res := s.res.map f }

/-! ## OrderedF64 (crates/weaver_common/src/ordered_float.rs) -/

/-- An IEEE-754 binary64 value given by its 64 bits (`f64::to_bits`). -/
structure F64 where
  bits : Nat
  lt : bits < 2 ^ 64
  deriving DecidableEq

namespace F64

/-- `f64::is_nan` at bit level: exponent all ones and non-zero mantissa. -/
def isNan (a : F64) : Bool := decide (a.bits % 2 ^ 63 > 0x7FF0000000000000)

/-- The position of a non-NaN double on the number line as an integer: for finite and infinite doubles the
magnitude order is the order of the low 63 bits, the top bit is the sign; both zeros map to 0. -/
def key (a : F64) : Int :=
  if a.bits < 2 ^ 63 then (a.bits : Int) else -((a.bits : Int) - 2 ^ 63)

/-- `f64::partial_cmp` (IEEE comparison; unordered iff a NaN is involved). -/
def partialCmp (a b : F64) : Option Ordering :=
  if a.isNan || b.isNan then none else some (compare a.key b.key)

/-- `f64 == f64`. -/
def feq (a b : F64) : Bool := !a.isNan && !b.isNan && decide (a.key = b.key)

/-- `f64::NAN.to_bits()`. -/
def nanBits : Nat := 0x7FF8000000000000

/-- `PartialEq for OrderedF64`, ordered_float.rs:49-58. -/
def oeq (a b : F64) : Bool := if a.isNan && b.isNan then true else a.feq b

/-- `Ord for OrderedF64`, ordered_float.rs:69-86. -/
def ocmp (a b : F64) : Ordering :=
  match a.partialCmp b with
  | some o => o
  | none => if a.isNan then (if b.isNan then .eq else .gt) else .lt

/-- `Hash for OrderedF64`, ordered_float.rs:88-99: the 64-bit word fed to the hasher. -/
def ohash (a : F64) : Nat :=
  if a.isNan then nanBits else if a.key = 0 then 0 else a.bits

end F64

/-! ## HTTP credentials (crates/weaver_common/src/http_auth.rs) -/

/-- UTF-8 bytes of a string: `starts_with` and `len` on `str` are byte-wise. -/
abbrev Bytes := List UInt8

/-- `TokenSource`, http_auth.rs:23-32. -/
inductive TokenSource where
  | token (t : Bytes)
  | tokenEnv (name : Bytes)
  | tokenCommand (argv : List Bytes)
  deriving DecidableEq

/-- `AuthMatchRule`, http_auth.rs:36-43 (the diagnostic name is omitted). -/
structure Rule where
  urlPrefix : Bytes
  source : TokenSource
  deriving DecidableEq

/-- `COMMAND_CACHE_TTL`, http_auth.rs:47, in milliseconds. -/
def ttl : Nat := 30000

/-- `CachedToken`, http_auth.rs:49-53. -/
structure Cached where
  token : Bytes
  fetchedAt : Nat

/-- `HttpAuthResolver::new`, http_auth.rs:76-84: stable sort by descending prefix length. -/
def sortRules (rules : List Rule) : List Rule :=
  Util.sortBy (Util.geKey fun r => r.urlPrefix.length) rules

/-- Rule selection in `HttpAuthResolver::resolve`, http_auth.rs:96-101 (on the sorted rules). -/
def selectRule (sorted : List Rule) (url : Bytes) : Option Rule :=
  sorted.find? fun r => r.urlPrefix.isPrefixOf url

/-- The command cache: the most recent insertion for a key is the one that counts (`HashMap::insert`). -/
abbrev Cache := List (List Bytes × Cached)

/-- `HashMap::get`. -/
def Cache.get (c : Cache) (argv : List Bytes) : Option Cached := (c.find? fun e => e.1 == argv).map (·.2)

/-- What a lookup does right after choosing its rule: either it answers at once, or it has to run a command
(http_auth.rs:105-129). `env` is the environment (`std::env::var`), `now` the time of `Instant::now`. -/
inductive Start where
  | answer (t : Option Bytes)
  | run (argv : List Bytes) (now : Nat)

/-- `materialize` and the first half of `run_command_cached`, http_auth.rs:105-129.
`Instant::duration_since` saturates at zero, as natural subtraction does. -/
def startLookup (env : Bytes → Option Bytes) (cache : Cache) (now : Nat) (rule : Rule) : Start :=
  match rule.source with
  | .token t => .answer (some t)
  | .tokenEnv name => .answer ((env name).filter fun t => !t.isEmpty)
  | .tokenCommand argv =>
    if argv.isEmpty then .answer none
    else match cache.get argv with
      | some c => if now - c.fetchedAt < ttl then .answer (some c.token) else .run argv now
      | none => .run argv now

/-- The second half of `run_command_cached`, http_auth.rs:130-143: `result` is what `run_token_command` gave. -/
def finishLookup (cache : Cache) (argv : List Bytes) (now : Nat) (result : Option Bytes) : Cache × Option Bytes :=
  match result with
  | none => (cache, none)
  | some t => ((argv, { token := t, fetchedAt := now }) :: cache, some t)

/-- A lookup under way in some thread, waiting for its helper command. -/
structure Pending where
  thread : Nat
  url : Bytes
  argv : List Bytes
  /-- the `Instant::now()` read at http_auth.rs:117 -/
  now : Nat
  /-- result of the command, once it has run -/
  result : Option (Option Bytes)

/-- An answer given to a caller of `resolve`. -/
structure Answer where
  url : Bytes
  token : Option Bytes
  /-- when the lookup was started -/
  startedAt : Nat

/-- An execution of a helper command which printed a token. -/
structure Issue where
  argv : List Bytes
  token : Bytes
  at_ : Nat

/-- A concurrent execution of many lookups on one shared resolver. Each lookup is split where the code releases and
re-acquires the lock: `begin` (rule choice and cache read, http_auth.rs:96-129), `exec` (the command runs,
http_auth.rs:130), `finish` (cache write and return, http_auth.rs:131-143). The two logs are ghost state. -/
structure AuthState where
  cache : Cache
  clock : Nat
  pending : List Pending
  answers : List Answer
  issued : List Issue

/-- Scheduler events. -/
inductive AuthEvent where
  | tick (d : Nat)
  | begin (thread : Nat) (url : Bytes)
  | exec (thread : Nat) (result : Option Bytes)
  | finish (thread : Nat)

/-- One atomic step of the shared resolver under an arbitrary scheduler (http_auth.rs:96-144). A thread which is
inside a lookup cannot begin another one. -/
def AuthState.step (rules : List Rule) (env : Bytes → Option Bytes) (s : AuthState) : AuthEvent → AuthState
  | .tick d => { s with clock := s.clock + d }
  | .begin th url =>
    if s.pending.any (fun p => p.thread == th) then s
    else match selectRule (sortRules rules) url with
    | none => { s with answers := ⟨url, none, s.clock⟩ :: s.answers }
    | some rule =>
      match startLookup env s.cache s.clock rule with
      | .answer t => { s with answers := ⟨url, t, s.clock⟩ :: s.answers }
      | .run argv now => { s with pending := ⟨th, url, argv, now, none⟩ :: s.pending }
  | .exec th result =>
    match s.pending.find? fun p => p.thread == th with
    | some p =>
      if p.result.isSome then s
      else { s with
        pending := { p with result := some result } :: s.pending.filter (fun q => !(q.thread == th))
        issued := match result with | some t => ⟨p.argv, t, s.clock⟩ :: s.issued | none => s.issued }
    | none => s
  | .finish th =>
    match s.pending.find? fun p => p.thread == th with
    | some p =>
      match p.result with
      | some result =>
        { s with
          cache := (finishLookup s.cache p.argv p.now result).1
          pending := s.pending.filter (fun q => !(q.thread == th))
          answers := ⟨p.url, (finishLookup s.cache p.argv p.now result).2, p.now⟩ :: s.answers }
      | none => s
    | none => s

/-- A fresh resolver. -/
def AuthState.init : AuthState := { cache := [], clock := 0, pending := [], answers := [], issued := [] }

/-- Run a schedule. -/
def AuthState.run (rules : List Rule) (env : Bytes → Option Bytes) (evs : List AuthEvent) : AuthState :=
  evs.foldl (AuthState.step rules env) AuthState.init

end Verif.Common
