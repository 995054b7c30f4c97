import Verif.Model.RawJson
/-!
# Answers that say the same
What another version of the library (or another program) may do differently when it writes its metrics, without healthd noticing: members that
healthd does not know, members in another order, names in another case.
-/
namespace Spec

/-- how a document is built, as far as its readers look at it. -/
inductive Shape where
  | leaf
  | map (values : Shape)
  | array (elems : Shape)
  | struct (fields : List (Str × Shape))

/-- the lower-case letter of a byte. -/
def lowerByte (c : UInt8) : UInt8 := if 65 ≤ c ∧ c ≤ 90 then c + 32 else c
/-- the same name, but for the case of its letters. -/
def SameName (a b : Str) : Prop := a.map lowerByte = b.map lowerByte
def Ascii (s : Str) : Prop := ∀ c ∈ s, c < 0x80

/-- one difference. -/
inductive Differs : Shape → Raw → Raw → Prop where
  /-- a member with a name that is not one of the fields is added -/
  | added {fields : List (Str × Shape)} {l1 l2 : List (Str × Raw)} {name : Str} {x : Raw} (ha : Ascii name) (hn : ∀ f ∈ fields, ¬ SameName name f.1) :
    Differs (.struct fields) (.obj (l1 ++ l2)) (.obj (l1 ++ (name, x) :: l2))
  /-- two members with different names change places -/
  | swapped {fields : List (Str × Shape)} {l1 l2 : List (Str × Raw)} {p q : Str × Raw} (hp : Ascii p.1) (hq : Ascii q.1) (hn : ¬ SameName p.1 q.1) :
    Differs (.struct fields) (.obj (l1 ++ p :: q :: l2)) (.obj (l1 ++ q :: p :: l2))
  /-- a name is written in another case -/
  | recased {fields : List (Str × Shape)} {l1 l2 : List (Str × Raw)} {name name' : Str} {x : Raw} (ha : Ascii name) (hb : Ascii name') (hn : SameName name name') :
    Differs (.struct fields) (.obj (l1 ++ (name, x) :: l2)) (.obj (l1 ++ (name', x) :: l2))
  /-- something differs within a field -/
  | inField {fields : List (Str × Shape)} {l1 l2 : List (Str × Raw)} {name : Str} {s : Shape} {x y : Raw} (ha : Ascii name)
    (hf : ∀ f ∈ fields, SameName name f.1 → f.2 = s) (h : Differs s x y) :
    Differs (.struct fields) (.obj (l1 ++ (name, x) :: l2)) (.obj (l1 ++ (name, y) :: l2))
  /-- something differs within a value of a map -/
  | inMap {s : Shape} {l1 l2 : List (Str × Raw)} {key : Str} {x y : Raw} (h : Differs s x y) :
    Differs (.map s) (.obj (l1 ++ (key, x) :: l2)) (.obj (l1 ++ (key, y) :: l2))
  /-- something differs within an element of an array -/
  | inArray {s : Shape} {l1 l2 : List Raw} {x y : Raw} (h : Differs s x y) : Differs (.array s) (.arr (l1 ++ x :: l2)) (.arr (l1 ++ y :: l2))

/-- any number of differences. -/
def SameFor (s : Shape) : Raw → Raw → Prop := Relation.EqvGen (Differs s)

/-! ## The metrics of a process (interval_aggregation.go, json_polling_sink_http.go:10-14) -/

def timerNames : List (Str × Shape) :=
  [(bs "count", .leaf), (bs "nanos_sum", .leaf), (bs "nanos_sum_squares", .leaf), (bs "nanos_min", .leaf), (bs "nanos_max", .leaf)]
def mapsNames : List (Str × Shape) :=
  [(bs "timers", .map (.struct timerNames)), (bs "gauges", .map .leaf), (bs "events", .map .leaf), (bs "event_errs", .map (.struct [(bs "count", .leaf)]))]
def jobShape : List (Str × Shape) :=
  mapsNames ++ timerNames ++ [(bs "count_success", .leaf), (bs "count_validation_error", .leaf), (bs "count_panic", .leaf), (bs "count_error", .leaf), (bs "count_junk", .leaf)]
def intervalNames : List (Str × Shape) := [(bs "interval_start", .leaf), (bs "serial_number", .leaf), (bs "jobs", .map (.struct jobShape))] ++ mapsNames
def metricsShape : Shape := .struct [(bs "instance_id", .leaf), (bs "interval_duration", .leaf), (bs "aggregations", .array (.struct intervalNames))]

/-! ## healthd's answers to healthtop (healthd/api.go:17-57, healthd/healthd.go:46-58) -/

def rowNames : List (Str × Shape) :=
  [(bs "name", .leaf), (bs "count", .leaf), (bs "count_success", .leaf), (bs "count_validation_error", .leaf), (bs "count_panic", .leaf), (bs "count_error", .leaf), (bs "count_junk", .leaf),
   (bs "nanos_sum", .leaf), (bs "nanos_sum_squares", .leaf), (bs "nanos_min", .leaf), (bs "nanos_max", .leaf), (bs "nanos_avg", .leaf), (bs "nanos_std_dev", .leaf)]
def hostNames : List (Str × Shape) :=
  [(bs "host_port", .leaf), (bs "last_check_time", .leaf), (bs "last_instance_id", .leaf), (bs "last_interval_duration", .leaf), (bs "last_err", .leaf), (bs "last_nanos", .leaf),
   (bs "last_code", .leaf), (bs "first_successful_response", .leaf), (bs "last_successful_response", .leaf)]
def apiShape (name : Str) (elems : List (Str × Shape)) : Shape := .struct [(bs "instance_id", .leaf), (bs "interval_duration", .leaf), (name, .array (.struct elems))]

end Spec
