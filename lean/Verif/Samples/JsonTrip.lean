import Verif.Samples.Json
/-
What is left of samples that are written as JSON and read again (C223).
-/
namespace Verif.Samples
open Verif.Util
open Verif.LiveCheck (PType)
open Verif.Values (inferType)

variable {R : Type}

/-! ### Lemmas about serde -/

theorem deAll_map {α β : Type} {de : J → Option β} {ser : α → J} {n : α → β} {l : List α}
    (h : ∀ x ∈ l, de (ser x) = some (n x)) : deAll de (l.map ser) = some (l.map n) := by
  induction l with
  | nil => rfl
  | cons x l ih =>
    simp only [List.map_cons, deAll, h x (by simp), ih fun y hy => h y (by simp [hy])]

theorem deVec_map {α β : Type} {de : J → Option β} {ser : α → J} {n : α → β} {l : List α}
    (h : ∀ x ∈ l, de (ser x) = some (n x)) : deVec de (.arr (l.map ser)) = some (l.map n) := deAll_map h

theorem deAll_none {α : Type} {de : J → Option α} {l : List J} (h : ∃ j ∈ l, de j = none) : deAll de l = none := by
  induction l with
  | nil => simp at h
  | cons x l ih =>
    obtain ⟨j, hj, hd⟩ := h
    simp only [deAll]
    rcases List.mem_cons.mp hj with rfl | hj
    · simp [hd]
    · rw [ih ⟨j, hj, hd⟩]
      cases de x <;> rfl

theorem deOpt_ser {α β : Type} {de : J → Option β} {ser : α → J} {n : α → β} {o : Option α}
    (h : ∀ x, o = some x → ser x ≠ .null ∧ de (ser x) = some (n x)) : deOpt de (serOpt ser o) = some (o.map n) := by
  cases o with
  | none => rfl
  | some x =>
    have ⟨hn, hd⟩ := h x rfl
    simp only [serOpt, Option.map_some]
    revert hn hd
    cases ser x <;> simp [deOpt]

theorem deOpt_result (c : Codec R) (o : Option R) : deOpt c.de (serOpt c.ser o) = some o := by
  rw [deOpt_ser (n := id) fun x _ => ⟨c.notNull x, c.law x⟩]
  simp

/-- What becomes of an optional float. -/
def finiteOf : Option F → Option F
  | some (.fin f) => some (.fin f)
  | _ => none

theorem deOpt_float (f64 : Int → Nat) (o : Option F) : deOpt (F.de f64) (serOpt F.ser o) = some (finiteOf o) := by
  rcases o with _ | _ | _ <;> rfl

/-- What becomes of an optional value. -/
def valueOf? : Option J → Option J
  | some .null => none
  | o => o

theorem deOpt_value (o : Option J) : deOpt some (serOpt id o) = some (valueOf? o) := by
  rcases o with _ | j
  · rfl
  · cases j <;> rfl

theorem deInt_ok {lo hi n : Int} (h : lo ≤ n ∧ n < hi) : deInt lo hi (.int n) = some n := by simp [deInt, h]

theorem deU32_ok {n : Int} (h : 0 ≤ n ∧ n < 2^32) : deU32 (.int n) = some n := deInt_ok h
theorem deU64_ok {n : Int} (h : 0 ≤ n ∧ n < 2^64) : deU64 (.int n) = some n := deInt_ok h

theorem deText_ptype (t : PType) : deText ptypes (.str t.text) = some t := by cases t <;> decide +kernel
theorem deText_kind (t : SKind) : deText skinds (.str t.text) = some t := by cases t <;> decide +kernel
theorem deText_code (t : Code) : deText codes (.str t.text) = some t := by cases t <;> decide +kernel
theorem deText_instr (t : SInstr) : deText instrs (.str t.text) = some t := by cases t <;> decide +kernel

/-! ### What is left -/

/-- Attributes lose results and null values, and get a type if they have none. -/
def leftAttr (a : RAttr R) : RAttr R :=
  { name := a.name, value := valueOf? a.value,
    typ := typeOr a.typ (valueOf? a.value), result := none }

def leftEvent (e : REvent R) : REvent R := { e with attrs := e.attrs.map leftAttr }
def leftPlain (e : RPlain R) : RPlain R := { e with attrs := e.attrs.map leftAttr }
def leftScope (e : RScope R) : RScope R := { e with attrs := e.attrs.map leftAttr }

def leftSpan (s : RSpan R) : RSpan R :=
  { s with attrs := s.attrs.map leftAttr, events := s.events.map leftEvent, links := s.links.map leftPlain, scope := false,
           resource := none }

def leftExemplar (e : RExemplar R) : RExemplar R := { e with attrs := e.attrs.map leftAttr }

def leftNumber (p : RNumber R) : RNumber R :=
  { p with attrs := p.attrs.map leftAttr, exemplars := p.exemplars.map leftExemplar }

def leftHistogram (p : RHistogram R) : RHistogram R :=
  { p with attrs := p.attrs.map leftAttr, sum := finiteOf p.sum, min := finiteOf p.min, max := finiteOf p.max,
           exemplars := p.exemplars.map leftExemplar }

/-- An exponential histogram that is read as a histogram. -/
def asHistogram (p : RExponential R) : RHistogram R :=
  { attrs := p.attrs.map leftAttr, count := p.count, sum := finiteOf p.sum, bucketCounts := [], explicitBounds := [],
    min := finiteOf p.min, max := finiteOf p.max, flags := p.flags, exemplars := p.exemplars.map leftExemplar, result := p.result }

/-- A histogram that is read as an exponential histogram. -/
def asExponential (z0 : Nat) (p : RHistogram R) : RExponential R :=
  { attrs := p.attrs.map leftAttr, count := p.count, sum := finiteOf p.sum, scale := 0, zeroCount := 0, positive := none,
    negative := none, flags := p.flags, min := finiteOf p.min, max := finiteOf p.max, zeroThreshold := .fin z0,
    exemplars := p.exemplars.map leftExemplar, result := p.result }

def F.isFin : F → Bool
  | .fin _ => true
  | .notFinite => false

/-- The kind of data points is guessed from what their fields look like. -/
def leftPoints (z0 : Nat) : RPoints R → RPoints R
  | .number l => .number (l.map leftNumber)
  | .histogram l =>
    if l = [] then .number []
    else if ∀ p ∈ l, ∀ f ∈ p.explicitBounds, F.isFin f = true then .histogram (l.map leftHistogram)
    else .exponential (l.map (asExponential z0))
  | .exponential l => if l = [] then .number [] else .histogram (l.map asHistogram)

/-- Instruments that are not supported are told by their names. -/
def leftInstr : RInstr → RInstr
  | .supported i => .supported i
  | .unsupported s => match (instrs.find? fun p => p.1 = s) with
    | some p => .supported p.2
    | none => .unsupported s

def leftMetric (z0 : Nat) (m : RMetric R) : RMetric R :=
  { m with instrument := leftInstr m.instrument, points := m.points.map (leftPoints z0), scope := false, resource := none }

def leftLog (l : RLog R) : RLog R := { l with attrs := l.attrs.map leftAttr, scope := false, resource := none }
def leftProfile (l : RProfile R) : RProfile R := { l with attrs := l.attrs.map leftAttr, scope := false, resource := none }

def left (z0 : Nat) : RSample R → RSample R
  | .attribute a => .attribute (leftAttr a)
  | .span s => .span (leftSpan s)
  | .spanEvent e => .spanEvent (leftEvent e)
  | .spanLink l => .spanLink (leftPlain l)
  | .resource r => .resource (leftPlain r)
  | .scope s => .scope (leftScope s)
  | .metric m => .metric (leftMetric z0 m)
  | .log l => .log (leftLog l)
  | .profile p => .profile (leftProfile p)

/-! ### What the types of Rust say -/

def U32 (n : Int) : Prop := 0 ≤ n ∧ n < 2^32
def I32 (n : Int) : Prop := -2^31 ≤ n ∧ n < 2^31
def U64 (n : Int) : Prop := 0 ≤ n ∧ n < 2^64

def FitsBuckets (b : Option (Int × List Int)) : Prop := ∀ x, b = some x → I32 x.1 ∧ ∀ n ∈ x.2, U64 n

def FitsPoints : RPoints R → Prop
  | .number l => ∀ p ∈ l, U32 p.flags
  | .histogram l => ∀ p ∈ l, U32 p.flags ∧ U64 p.count ∧ ∀ n ∈ p.bucketCounts, U64 n
  | .exponential l => ∀ p ∈ l, U32 p.flags ∧ U64 p.count ∧ I32 p.scale ∧ U64 p.zeroCount ∧ FitsBuckets p.positive ∧
      FitsBuckets p.negative

/-- Integers are within the limits of their types. -/
def Fits : RSample R → Prop
  | .scope s => U32 s.dropped
  | .metric m => ∀ p, m.points = some p → FitsPoints p
  | .log l => ∀ n, l.severityNumber = some n → I32 n
  | _ => True

/-! ### Reading what was written -/

theorem de_attr (c : Codec R) (a : RAttr R) : deAttr (serAttr c a) = some (leftAttr a) := by
  have ht : deOpt (deText ptypes) (serOpt (fun t => .str t.text) a.typ) = some a.typ := by
    rw [deOpt_ser (n := id) fun x _ => ⟨by simp, deText_ptype x⟩]
    simp
  simp [deAttr, serAttr, need, opt, J.get, deStr, deOpt_value, ht, leftAttr]

theorem de_attrs (c : Codec R) (l : List (RAttr R)) : deVec deAttr (.arr (l.map (serAttr c))) = some (l.map leftAttr) :=
  deVec_map fun a _ => de_attr c a

theorem de_event (c : Codec R) (e : REvent R) : deEvent c (serEvent c e) = some (leftEvent e) := by
  simp [deEvent, serEvent, need, opt, dflt, J.get, deStr, de_attrs, deOpt_result, leftEvent]

theorem de_plain (c : Codec R) (e : RPlain R) : dePlain c (serPlain c e) = some (leftPlain e) := by
  simp [dePlain, serPlain, J.isObj, opt, dflt, J.get, de_attrs, deOpt_result, leftPlain]

theorem de_scope (c : Codec R) (e : RScope R) (h : U32 e.dropped) : deScope c (serScope c e) = some (leftScope e) := by
  simp [deScope, serScope, J.isObj, opt, dflt, J.get, deStr, de_attrs, deOpt_result, leftScope, deU32_ok h]

theorem de_status (s : Code × String) : deStatus (serStatus s) = some s := by
  simp [deStatus, serStatus, need, J.get, deText_code, deStr]

theorem de_span (c : Codec R) (s : RSpan R) : deSpan c (serSpan c s) = some (leftSpan s) := by
  have hs : deOpt deStatus (serOpt serStatus s.status) = some s.status := by
    rw [deOpt_ser (n := id) fun x _ => ⟨by simp [serStatus], de_status x⟩]
    simp
  have he : deVec (deEvent c) (.arr (s.events.map (serEvent c))) = some (s.events.map leftEvent) := deVec_map fun e _ => de_event c e
  have hl : deVec (dePlain c) (.arr (s.links.map (serPlain c))) = some (s.links.map leftPlain) := deVec_map fun e _ => de_plain c e
  simp [deSpan, serSpan, need, opt, dflt, J.get, deStr, deText_kind, hs, de_attrs, he, hl, deOpt_result, leftSpan]

theorem de_exemplar (c : Codec R) (e : RExemplar R) : deExemplar c (serExemplar c e) = some (leftExemplar e) := by
  simp [deExemplar, serExemplar, need, opt, J.get, deStr, de_attrs, deOpt_result, leftExemplar]

theorem de_exemplars (c : Codec R) (l : List (RExemplar R)) :
    deVec (deExemplar c) (.arr (l.map (serExemplar c))) = some (l.map leftExemplar) := deVec_map fun e _ => de_exemplar c e

theorem de_number (c : Codec R) (p : RNumber R) (h : U32 p.flags) : deNumber c (serNumber c p) = some (leftNumber p) := by
  simp [deNumber, serNumber, need, opt, dflt, J.get, de_attrs, de_exemplars, deOpt_result, leftNumber, deU32_ok h]

theorem de_number_histogram (c : Codec R) (p : RHistogram R) : deNumber c (serHistogram c p) = none := by
  simp [deNumber, serHistogram, need, J.get, de_attrs]

theorem de_number_exponential (c : Codec R) (p : RExponential R) : deNumber c (serExponential c p) = none := by
  simp [deNumber, serExponential, need, J.get, de_attrs]

theorem de_counts {l : List Int} (h : ∀ n ∈ l, U64 n) : deVec deU64 (.arr (l.map .int)) = some l := by
  have := deVec_map (de := deU64) (ser := J.int) (n := id) fun n hn => deInt_ok (h n hn)
  simpa using this

theorem de_bounds (f64 : Int → Nat) {l : List F} (h : ∀ f ∈ l, F.isFin f = true) : deVec (F.de f64) (.arr (l.map F.ser)) = some l := by
  have := deVec_map (de := F.de f64) (ser := F.ser) (n := id) (l := l) fun f hf => by
    have := h f hf
    cases f <;> first | rfl | simp [F.isFin] at this
  simpa using this

theorem de_bounds_none (f64 : Int → Nat) {l : List F} (h : ∃ f ∈ l, F.isFin f = false) :
    deVec (F.de f64) (.arr (l.map F.ser)) = none := by
  obtain ⟨f, hf, hb⟩ := h
  refine deAll_none ⟨F.ser f, List.mem_map_of_mem hf, ?_⟩
  cases f <;> first | rfl | simp [F.isFin] at hb

theorem de_histogram (f64 : Int → Nat) (c : Codec R) (p : RHistogram R) (h : U32 p.flags) (hc : U64 p.count)
    (hb : ∀ n ∈ p.bucketCounts, U64 n) (hf : ∀ f ∈ p.explicitBounds, F.isFin f = true) :
    deHistogram f64 c (serHistogram c p) = some (leftHistogram p) := by
  simp [deHistogram, serHistogram, need, opt, dflt, J.get, de_attrs, de_exemplars, deOpt_result, leftHistogram,
    deU32_ok h, deOpt_float, de_counts hb, de_bounds f64 hf, deU64_ok hc]

theorem de_histogram_none (f64 : Int → Nat) (c : Codec R) (p : RHistogram R) (hc : U64 p.count)
    (hb : ∀ n ∈ p.bucketCounts, U64 n) (hf : ∃ f ∈ p.explicitBounds, F.isFin f = false) :
    deHistogram f64 c (serHistogram c p) = none := by
  simp [deHistogram, serHistogram, need, opt, dflt, J.get, de_attrs, deOpt_float, de_counts hb, de_bounds_none f64 hf,
    deU64_ok hc]

theorem de_histogram_exponential (f64 : Int → Nat) (c : Codec R) (p : RExponential R) (h : U32 p.flags) (hc : U64 p.count) :
    deHistogram f64 c (serExponential c p) = some (asHistogram p) := by
  simp [deHistogram, serExponential, need, opt, dflt, J.get, de_attrs, de_exemplars, deOpt_result, asHistogram,
    deU32_ok h, deOpt_float, deU64_ok hc]

theorem de_exponential_histogram (f64 : Int → Nat) (z0 : Nat) (c : Codec R) (p : RHistogram R) (h : U32 p.flags)
    (hc : U64 p.count) : deExponential f64 z0 c (serHistogram c p) = some (asExponential z0 p) := by
  simp [deExponential, serHistogram, need, opt, dflt, J.get, de_attrs, de_exemplars, deOpt_result, asExponential,
    deU32_ok h, deOpt_float, deU64_ok hc]

theorem de_buckets (b : Option (Int × List Int)) (h : FitsBuckets b) : deOpt deBuckets (serOpt serBuckets b) = some b := by
  rw [deOpt_ser (n := id) fun x hx => ⟨by simp [serBuckets], ?_⟩]
  · simp
  · obtain ⟨h1, h2⟩ := h x hx
    have hi : deI32 (.int x.1) = some x.1 := deInt_ok h1
    simp [deBuckets, serBuckets, need, J.get, hi, de_counts h2]

/-- An exponential histogram that is read as one is what was written, but for the numbers that are not finite. -/
theorem de_exponential (f64 : Int → Nat) (z0 : Nat) (c : Codec R) (p : RExponential R) (h : U32 p.flags) (hc : U64 p.count)
    (hs : I32 p.scale) (hz : U64 p.zeroCount) (hp : FitsBuckets p.positive) (hn : FitsBuckets p.negative)
    (ht : F.isFin p.zeroThreshold = true) :
    deExponential f64 z0 c (serExponential c p) = some { p with
      attrs := p.attrs.map leftAttr, sum := finiteOf p.sum, min := finiteOf p.min, max := finiteOf p.max,
      exemplars := p.exemplars.map leftExemplar } := by
  have hi : deI32 (.int p.scale) = some p.scale := deInt_ok hs
  have hf : F.de f64 p.zeroThreshold.ser = some p.zeroThreshold := by
    cases hq : p.zeroThreshold with
    | fin f => rfl
    | notFinite => rw [hq] at ht; cases ht
  simp [deExponential, serExponential, need, opt, dflt, J.get, de_attrs, de_exemplars, deOpt_result, deU32_ok h, deOpt_float,
    deU64_ok hc, deU64_ok hz, hi, de_buckets _ hp, de_buckets _ hn, hf]

theorem de_points (f64 : Int → Nat) (z0 : Nat) (c : Codec R) (p : RPoints R) (h : FitsPoints p) :
    dePoints f64 z0 c (serPoints c p) = some (leftPoints z0 p) := by
  cases p with
  | number l => simp only [dePoints, serPoints, deVec_map fun p hp => de_number c p (h p hp), leftPoints]
  | histogram l =>
    cases l with
    | nil => simp [dePoints, serPoints, deVec, deAll, leftPoints]
    | cons x l =>
      have hn : deVec (deNumber c) (.arr ((x :: l).map (serHistogram c))) = none :=
        deAll_none ⟨_, List.mem_map_of_mem (List.mem_cons_self ..), de_number_histogram c x⟩
      simp only [dePoints, serPoints, hn, leftPoints, reduceCtorEq, if_false]
      by_cases hf : ∀ p ∈ x :: l, ∀ f ∈ p.explicitBounds, F.isFin f = true
      · rw [if_pos hf, deVec_map fun p hp => de_histogram f64 c p (h p hp).1 (h p hp).2.1 (h p hp).2.2 (hf p hp)]
      · have ⟨p, hp, hb⟩ : ∃ p ∈ x :: l, ∃ f ∈ p.explicitBounds, F.isFin f = false := by
          generalize x :: l = l' at hf
          simpa using hf
        rw [if_neg hf, show deVec (deHistogram f64 c) (.arr ((x :: l).map (serHistogram c))) = none from
          deAll_none ⟨_, List.mem_map_of_mem hp, de_histogram_none f64 c p (h p hp).2.1 (h p hp).2.2 hb⟩,
          deVec_map fun p hp => de_exponential_histogram f64 z0 c p (h p hp).1 (h p hp).2.1]
        rfl
  | exponential l =>
    cases l with
    | nil => simp [dePoints, serPoints, deVec, deAll, leftPoints]
    | cons x l =>
      have hn : deVec (deNumber c) (.arr ((x :: l).map (serExponential c))) = none :=
        deAll_none ⟨_, List.mem_map_of_mem (List.mem_cons_self ..), de_number_exponential c x⟩
      simp only [dePoints, serPoints, hn, leftPoints, reduceCtorEq, if_false,
        deVec_map fun p hp => de_histogram_exponential f64 c p (h p hp).1 (h p hp).2.1]

theorem de_instr (i : RInstr) : deInstr (serInstr i) = some (leftInstr i) := by
  cases i with
  | supported i => simp [deInstr, serInstr, deText_instr, leftInstr]
  | unsupported s =>
    simp only [deInstr, serInstr, deText, deStr, leftInstr]
    cases instrs.find? fun p => p.1 = s <;> rfl

theorem serPoints_null (c : Codec R) (p : RPoints R) : serPoints c p ≠ .null := by cases p <;> simp [serPoints]

theorem de_metric (f64 : Int → Nat) (z0 : Nat) (c : Codec R) (m : RMetric R) (h : ∀ p, m.points = some p → FitsPoints p) :
    deMetric f64 z0 c (serMetric c m) = some (leftMetric z0 m) := by
  have hp : deOpt (dePoints f64 z0 c) (serOpt (serPoints c) m.points) = some (m.points.map (leftPoints z0)) :=
    deOpt_ser fun p hp => ⟨serPoints_null c p, de_points f64 z0 c p (h p hp)⟩
  simp [deMetric, serMetric, need, opt, J.get, deStr, de_instr, hp, deOpt_result, leftMetric]

theorem deOpt_str (o : Option String) : deOpt deStr (serOpt .str o) = some o := by cases o <;> rfl

theorem de_log (c : Codec R) (l : RLog R) (h : ∀ n, l.severityNumber = some n → I32 n) :
    deLog c (serLog c l) = some (leftLog l) := by
  have hs : deOpt deI32 (serOpt .int l.severityNumber) = some l.severityNumber := by
    rw [deOpt_ser (de := deI32) (ser := J.int) (n := id) fun n hn => ⟨by simp, deInt_ok (h n hn)⟩]
    simp
  simp [deLog, serLog, need, opt, dflt, J.get, deStr, hs, deOpt_str, de_attrs, deOpt_result, leftLog]

theorem de_profile (c : Codec R) (l : RProfile R) : deProfile c (serProfile c l) = some (leftProfile l) := by
  simp [deProfile, serProfile, need, opt, dflt, J.get, deStr, de_attrs, deOpt_result, leftProfile]

/-- Every sample that is written can be read, and what is left of it is `left`. -/
theorem de_ser (f64 : Int → Nat) (z0 : Nat) (c : Codec R) (s : RSample R) (h : Fits s) :
    de f64 z0 c (ser c s) = some (left z0 s) := by
  cases s with
  | «attribute» a => simp [de, ser, de_attr, left]
  | span a => simp [de, ser, de_span, left]
  | spanEvent a => simp [de, ser, de_event, left]
  | spanLink a => simp [de, ser, de_plain, left]
  | resource a => simp [de, ser, de_plain, left]
  | scope a => simp [de, ser, de_scope c a h, left]
  | metric a => simp [de, ser, de_metric f64 z0 c a h, left]
  | log a => simp [de, ser, de_log c a h, left]
  | profile a => simp [de, ser, de_profile, left]

/-- C223: the samples of a report can always be read as the input of another check, one for one. -/
theorem json_readable (f64 : Int → Nat) (z0 : Nat) (c : Codec R) (l : List (RSample R)) (h : ∀ s ∈ l, Fits s) :
    readSamples f64 z0 c (writeSamples c l) = some (l.map (left z0)) :=
  deVec_map fun s hs => de_ser f64 z0 c s (h s hs)

/-! ### What has nothing to lose -/

/-- No result, no null, and a type if there is one to be found. -/
def AttrPlain (a : RAttr R) : Prop :=
  a.result = none ∧ a.value ≠ some .null ∧ (a.typ = none → ∀ v, a.value = some v → inferType (valueOf v) = none)

def AttrsPlain (l : List (RAttr R)) : Prop := ∀ a ∈ l, AttrPlain a

def Finite (o : Option F) : Prop := o ≠ some .notFinite

def PointsPlain : RPoints R → Prop
  | .number l => ∀ p ∈ l, AttrsPlain p.attrs ∧ ∀ e ∈ p.exemplars, AttrsPlain e.attrs
  | .histogram l => l ≠ [] ∧ ∀ p ∈ l, AttrsPlain p.attrs ∧ (∀ e ∈ p.exemplars, AttrsPlain e.attrs) ∧ Finite p.sum ∧ Finite p.min ∧
      Finite p.max ∧ ∀ f ∈ p.explicitBounds, Finite (some f)
  | .exponential _ => False

/-- A sample that says nothing that JSON has no place for. -/
def Plain : RSample R → Prop
  | .attribute a => AttrPlain a
  | .span s => AttrsPlain s.attrs ∧ (∀ e ∈ s.events, AttrsPlain e.attrs) ∧ (∀ e ∈ s.links, AttrsPlain e.attrs) ∧
      s.scope = false ∧ s.resource = none
  | .spanEvent e => AttrsPlain e.attrs
  | .spanLink e => AttrsPlain e.attrs
  | .resource e => AttrsPlain e.attrs
  | .scope e => AttrsPlain e.attrs
  | .metric m => m.scope = false ∧ m.resource = none ∧ (∀ p, m.points = some p → PointsPlain p) ∧
      ∀ s, m.instrument = .unsupported s → s ∉ ["updowncounter", "counter", "gauge", "histogram"]
  | .log l => AttrsPlain l.attrs ∧ l.scope = false ∧ l.resource = none
  | .profile l => AttrsPlain l.attrs ∧ l.scope = false ∧ l.resource = none

theorem map_id_of {α : Type} {f : α → α} {l : List α} (h : ∀ x ∈ l, f x = x) : l.map f = l := by
  induction l with
  | nil => rfl
  | cons x l ih => simp [h x, ih fun y hy => h y (by simp [hy])]

theorem leftAttr_plain {a : RAttr R} (h : AttrPlain a) : leftAttr a = a := by
  obtain ⟨hr, hv, ht⟩ := h
  have hv' : valueOf? a.value = a.value := by
    rcases hv'' : a.value with _ | j
    · rfl
    · cases j <;> first | rfl | exact absurd hv'' hv
  obtain ⟨n, v, t, r⟩ := a
  simp only at hr hv' ht
  subst hr
  simp only [leftAttr, hv', RAttr.mk.injEq, true_and, and_true]
  cases t with
  | some t => rfl
  | none =>
    cases v with
    | none => rfl
    | some v => exact ht rfl v rfl

theorem leftAttrs_plain {l : List (RAttr R)} (h : AttrsPlain l) : l.map leftAttr = l := map_id_of fun a ha => leftAttr_plain (h a ha)

theorem leftExemplars_plain {l : List (RExemplar R)} (h : ∀ e ∈ l, AttrsPlain e.attrs) : l.map leftExemplar = l :=
  map_id_of fun e he => by simp [leftExemplar, leftAttrs_plain (h e he)]

theorem finite_kept {o : Option F} (h : Finite o) : finiteOf o = o := by
  rcases o with _ | _ | _
  · rfl
  · rfl
  · exact absurd rfl h

theorem leftPoints_plain (z0 : Nat) {p : RPoints R} (h : PointsPlain p) : leftPoints z0 p = p := by
  cases p with
  | number l =>
    simp only [leftPoints]
    rw [map_id_of fun p hp => by simp [leftNumber, leftAttrs_plain (h p hp).1, leftExemplars_plain (h p hp).2]]
  | histogram l =>
    have hf : ∀ p ∈ l, ∀ f ∈ p.explicitBounds, F.isFin f = true := fun p hp f hf => by
      have := (h.2 p hp).2.2.2.2.2 f hf
      cases f with
      | fin => rfl
      | notFinite => exact absurd rfl this
    simp only [leftPoints, if_neg h.1, if_pos hf]
    rw [map_id_of fun p hp => ?_]
    have ⟨ha, he, hs, hm, hx, _⟩ := h.2 p hp
    simp [leftHistogram, leftAttrs_plain ha, leftExemplars_plain he, finite_kept hs, finite_kept hm, finite_kept hx]
  | exponential l => exact absurd h id

theorem left_plain (z0 : Nat) {s : RSample R} (h : Plain s) : left z0 s = s := by
  cases s with
  | «attribute» a => simp [left, leftAttr_plain h]
  | span s =>
    obtain ⟨ha, he, hl, hs, hr⟩ := h
    obtain ⟨name, kind, status, attrs, events, links, scope, result, resource⟩ := s
    simp only at ha he hl hs hr
    subst hs hr
    have he' : events.map leftEvent = events := map_id_of fun e he'' => by simp [leftEvent, leftAttrs_plain (he e he'')]
    have hl' : links.map leftPlain = links := map_id_of fun e he'' => by simp [leftPlain, leftAttrs_plain (hl e he'')]
    simp [left, leftSpan, leftAttrs_plain ha, he', hl']
  | spanEvent e => simp [left, leftEvent, leftAttrs_plain h]
  | spanLink e => simp [left, leftPlain, leftAttrs_plain h]
  | resource e => simp [left, leftPlain, leftAttrs_plain h]
  | scope e => simp [left, leftScope, leftAttrs_plain h]
  | metric m =>
    obtain ⟨hs, hr, hp, hi⟩ := h
    obtain ⟨name, instrument, unit, points, scope, result, resource⟩ := m
    simp only at hs hr hp hi
    subst hs hr
    have hp' : points.map (leftPoints z0) = points := by
      cases points with
      | none => rfl
      | some p => simp [leftPoints_plain z0 (hp p rfl)]
    have hi' : leftInstr instrument = instrument := by
      cases instrument with
      | supported i => rfl
      | unsupported s =>
        have := hi s rfl
        simp only [List.mem_cons, List.not_mem_nil, or_false, not_or] at this
        obtain ⟨h1, h2, h3, h4⟩ := this
        simp [leftInstr, instrs, List.find?, Ne.symm h1, Ne.symm h2, Ne.symm h3, Ne.symm h4]
    simp [left, leftMetric, hp', hi']
  | log l =>
    obtain ⟨ha, hs, hr⟩ := h
    cases l
    simp only at ha hs hr
    subst hs hr
    simp [left, leftLog, leftAttrs_plain ha]
  | profile l =>
    obtain ⟨ha, hs, hr⟩ := h
    cases l
    simp only at ha hs hr
    subst hs hr
    simp [left, leftProfile, leftAttrs_plain ha]

/-- C223 (partial): samples with nothing to lose are read as they were written. -/
theorem json_round_trip_partial (f64 : Int → Nat) (z0 : Nat) (c : Codec R) (l : List (RSample R)) (h : ∀ s ∈ l, Fits s)
    (hp : ∀ s ∈ l, Plain s) : readSamples f64 z0 c (writeSamples c l) = some l := by
  rw [json_readable f64 z0 c l h, map_id_of fun s hs => left_plain z0 (hp s hs)]

/-! ### What is lost -/

/-- A metric with some data points. -/
def metricOf (p : RPoints R) : RSample R :=
  .metric { name := "m", instrument := .supported .histogram, unit := "s", scope := false, result := none, resource := none,
            points := some p }

/-- A metric with one exponential histogram. -/
def exponentialMetric : RSample R :=
  metricOf (.exponential [
    { attrs := [], count := 1, sum := none, scale := 2, zeroCount := 0, positive := some (0, [1]), negative := none, flags := 0,
      min := none, max := none, zeroThreshold := .fin 0, exemplars := [], result := none }])

/-- The same metric with a histogram that has no buckets. -/
def bareMetric : RSample R :=
  metricOf (.histogram [
    { attrs := [], count := 1, sum := none, bucketCounts := [], explicitBounds := [], min := none, max := none, flags := 0,
      exemplars := [], result := none }])

/-- C223 (refuted): exponential histograms that were written are read as histograms, whose buckets are gone. -/
theorem json_round_trip_refuted (f64 : Int → Nat) (z0 : Nat) (c : Codec R) :
    Fits (exponentialMetric (R := R)) ∧ readSamples f64 z0 c (writeSamples c [exponentialMetric]) = some [bareMetric] ∧
    (exponentialMetric (R := R)) ≠ bareMetric := by
  have hf : Fits (exponentialMetric (R := R)) := by
    simp [Fits, exponentialMetric, metricOf, FitsPoints, U32, U64, I32, FitsBuckets]
  refine ⟨hf, ?_, by simp [exponentialMetric, bareMetric, metricOf]⟩
  rw [json_readable f64 z0 c _ (by simpa using hf)]
  rfl

/-- C223: of metrics with data points, those that are read as exponential histograms are histograms with a bound that is not
finite, and nothing else. -/
theorem exponential_iff (z0 : Nat) (p : RPoints R) :
    (∃ l, leftPoints z0 p = .exponential l) ↔
      ∃ l, p = .histogram l ∧ ∃ x ∈ l, F.notFinite ∈ x.explicitBounds := by
  constructor
  · rintro ⟨l, h⟩
    cases p with
    | number m => simp [leftPoints] at h
    | exponential m =>
      simp only [leftPoints] at h
      split at h <;> simp at h
    | histogram m =>
      refine ⟨m, rfl, ?_⟩
      simp only [leftPoints] at h
      split at h
      · simp at h
      · split at h
        · simp at h
        · rename_i hf
          have ⟨x, hx, f, hf, hb⟩ : ∃ p ∈ m, ∃ f ∈ p.explicitBounds, F.isFin f = false := by simpa using hf
          cases f with
          | fin => simp [F.isFin] at hb
          | notFinite => exact ⟨x, hx, hf⟩
  · rintro ⟨l, rfl, x, hx, hb⟩
    have h1 : l ≠ [] := List.ne_nil_of_mem hx
    have h2 : ¬∀ p ∈ l, ∀ f ∈ p.explicitBounds, F.isFin f = true := fun h => by simpa [F.isFin] using h x hx _ hb
    exact ⟨l.map (asExponential z0), by simp only [leftPoints, if_neg h1, if_neg h2]⟩

theorem attr_plain (a : RAttr R) : AttrPlain (leftAttr a) := by
  obtain ⟨n, v, t, r⟩ := a
  refine ⟨rfl, ?_, ?_⟩
  · rcases v with _ | j
    · simp [leftAttr, valueOf?]
    · cases j <;> simp [leftAttr, valueOf?]
  · intro ht w hw
    simp only [leftAttr] at ht hw
    rw [hw] at ht
    cases t with
    | none => exact ht
    | some t => exact absurd ht (by simp [typeOr])

theorem attrs_plain (l : List (RAttr R)) : AttrsPlain (l.map leftAttr) := by
  intro a ha
  obtain ⟨b, _, rfl⟩ := List.mem_map.mp ha
  exact attr_plain b

theorem exemplars_plain (l : List (RExemplar R)) : ∀ e ∈ l.map leftExemplar, AttrsPlain e.attrs := by
  intro a ha
  obtain ⟨b, _, rfl⟩ := List.mem_map.mp ha
  exact attrs_plain b.attrs

theorem finiteOf_finite (o : Option F) : Finite (finiteOf o) := by
  rcases o with _ | _ | _ <;> simp [Finite, finiteOf]

theorem points_plain (z0 : Nat) (p : RPoints R) (h : ∀ l, leftPoints z0 p ≠ .exponential l) : PointsPlain (leftPoints z0 p) := by
  cases p with
  | number l =>
    intro p hp
    obtain ⟨q, _, rfl⟩ := List.mem_map.mp hp
    exact ⟨attrs_plain _, exemplars_plain _⟩
  | histogram l =>
    simp only [leftPoints] at h ⊢
    split
    · simp [PointsPlain]
    · rename_i hne
      rw [if_neg hne] at h
      split
      · rename_i hf
        refine ⟨by simpa using hne, fun p hp => ?_⟩
        obtain ⟨q, hq, rfl⟩ := List.mem_map.mp hp
        refine ⟨attrs_plain _, exemplars_plain _, finiteOf_finite _, finiteOf_finite _, finiteOf_finite _, fun f hf' he => ?_⟩
        cases he
        simpa [F.isFin] using hf q hq _ hf'
      · rename_i hf
        rw [if_neg hf] at h
        exact absurd rfl (h _)
  | exponential l =>
    simp only [leftPoints]
    split
    · simp [PointsPlain]
    · rename_i hne
      refine ⟨by simpa using hne, fun p hp => ?_⟩
      obtain ⟨q, hq, rfl⟩ := List.mem_map.mp hp
      exact ⟨attrs_plain _, exemplars_plain _, finiteOf_finite _, finiteOf_finite _, finiteOf_finite _, by simp [asHistogram]⟩

theorem instr_plain (i : RInstr) (s : String) (h : leftInstr i = .unsupported s) :
    s ∉ ["updowncounter", "counter", "gauge", "histogram"] := by
  cases i with
  | supported i => simp [leftInstr] at h
  | unsupported t =>
    simp only [leftInstr] at h
    split at h
    · simp at h
    · rename_i hn
      cases h
      intro hm
      simp only [List.mem_cons, List.not_mem_nil, or_false] at hm
      rcases hm with rfl | rfl | rfl | rfl <;> simp [instrs] at hn

/-- What was read has nothing more to lose, but for exponential histograms. -/
theorem read_plain (z0 : Nat) (s : RSample R)
    (h : ∀ m, left z0 s = .metric m → ∀ l, m.points ≠ some (.exponential l)) : Plain (left z0 s) := by
  cases s with
  | «attribute» a => exact attr_plain a
  | span s =>
    refine ⟨attrs_plain _, fun e he => ?_, fun e he => ?_, rfl, rfl⟩ <;> obtain ⟨q, _, rfl⟩ := List.mem_map.mp he <;>
      exact attrs_plain _
  | spanEvent e => exact attrs_plain _
  | spanLink e => exact attrs_plain _
  | resource e => exact attrs_plain _
  | scope e => exact attrs_plain _
  | metric m =>
    refine ⟨rfl, rfl, fun p hp => ?_, fun s hs => instr_plain _ s hs⟩
    have hl := h _ rfl
    simp only [leftMetric] at hp hl
    obtain ⟨q, hq, rfl⟩ := Option.map_eq_some_iff.mp hp
    exact points_plain z0 q fun l hl' => hl l (by rw [hq, Option.map_some, hl'])
  | log l => exact ⟨attrs_plain _, rfl, rfl⟩
  | profile l => exact ⟨attrs_plain _, rfl, rfl⟩

/-- C223: from the second time on, writing and reading changes nothing. -/
theorem json_settles (z0 : Nat) (s : RSample R) : left z0 (left z0 (left z0 s)) = left z0 (left z0 s) := by
  refine left_plain z0 (read_plain z0 _ fun m hm l hl => ?_)
  cases s with
  | metric m' =>
    simp only [left, RSample.metric.injEq] at hm
    subst hm
    simp only [leftMetric, Option.map_eq_some_iff] at hl
    obtain ⟨p, ⟨q, hq, rfl⟩, hp⟩ := hl
    obtain ⟨l', hl', x, hx, hb⟩ := (exponential_iff z0 _).mp ⟨l, hp⟩
    have hne : ∀ k, leftPoints z0 q ≠ .exponential k := fun k hk => by rw [hl'] at hk; cases hk
    have := points_plain z0 q hne
    rw [hl'] at this
    exact (this.2 x hx).2.2.2.2.2 _ hb rfl
  | _ => simp [left] at hm

/-! ### Examples -/

/-- Results that are written as objects. -/
def unitCodec : Codec Unit where
  ser _ := .obj []
  de _ := some ()
  law _ := rfl
  notNull _ := by simp

/-- A sample that has nothing to lose. -/
def plainLog : RSample Unit :=
  .log { eventName := "e", severityNumber := some 9, severityText := none, body := some "b", traceId := none, spanId := none,
         attrs := [{ name := "a", value := some (.int 3), typ := some .int, result := none }], scope := false, result := some (),
         resource := none }

example : Fits plainLog ∧ Plain plainLog := by
  simp [Fits, Plain, plainLog, AttrsPlain, AttrPlain, I32]

example : readSamples (fun _ => 0) 0 unitCodec (writeSamples unitCodec [plainLog]) = some [plainLog] :=
  json_round_trip_partial _ _ _ _ (by simp [Fits, plainLog, I32]) (by simp [Plain, plainLog, AttrsPlain, AttrPlain])

/-- Histograms may have integers where there are floats. -/
example (f64 : Int → Nat) : deHistogram f64 unitCodec (.obj [("attributes", .arr []), ("count", .int 1), ("sum", .int 2)]) =
    some { attrs := [], count := 1, sum := some (.fin (f64 2)), bucketCounts := [], explicitBounds := [], min := none, max := none,
           flags := 0, exemplars := [], result := none } := by
  simp [deHistogram, need, opt, dflt, J.get, deVec, deAll, deU64, deInt, deOpt, F.de]

/-- Types are found for attributes that have none. -/
example : deAttr (R := Unit) (.obj [("name", .str "a"), ("value", .int 3)]) =
    some { name := "a", value := some (.int 3), typ := some .int, result := none } := by
  simp [deAttr, need, opt, J.get, deStr, deOpt, typeOr, inferType, valueOf, elemOf]

end Verif.Samples
