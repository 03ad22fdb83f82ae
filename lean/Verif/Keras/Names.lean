/-!
# Model of `unique_object_name`

  /repo/tensorflow_model_optimization/python/core/keras/compat.py, lines 79-134
-/
namespace Verif.Keras

/-- `name_uid_map`, a `defaultdict(int)`: the counter of a namespace and a name. -/
abbrev UidMap := String × String → Nat

/-- The name proposed when the counter is `count`, lines 124-132. -/
def propose (zeroBased : Bool) (name : String) (count : Nat) : String :=
  if zeroBased then
    if count ≠ 0 then name ++ "_" ++ toString count else name
  else name ++ "_" ++ toString (count + 1)

/-- The `while` loop, lines 122-133: the name and the counter after it.  The loop has no bound in
the code; `none` means that `fuel` iterations were not enough (see `C66_terminates`). -/
def search (zeroBased : Bool) (avoid : List String) (name : String) :
    Nat → Nat → Option (String × Nat)
  | 0, _ => none
  | fuel + 1, count =>
    if propose zeroBased name count ∈ avoid then search zeroBased avoid name fuel (count + 1)
    else some (propose zeroBased name count, count + 1)

/-- The arguments of a call; `avoidNames = none` is the default. -/
structure NameCall where
  name : String
  avoidNames : Option (List String) := none
  ns : String := ""
  zeroBased : Bool := false
  avoidObserved : Bool := false

/-- `unique_object_name`, with at most `fuel` iterations: the name and the new map.
`OBSERVED_NAMES` (line 117) is defined nowhere in the module. -/
def uniqueObjectName (fuel : Nat) (c : NameCall) (m : UidMap) : Except String (String × UidMap) :=
  if c.avoidNames = none ∧ c.avoidObserved then .error "NameError: OBSERVED_NAMES"
  else
    match search c.zeroBased (c.avoidNames.getD []) c.name fuel (m (c.ns, c.name)) with
    | none => .error "loop"
    | some (n, k) => .ok (n, fun key => if key = (c.ns, c.name) then k else m key)

/-- A history of calls with one map: the names returned, up to the first failing call. -/
def namesOf (fuel : NameCall → Nat) : List NameCall → UidMap → List (NameCall × String)
  | [], _ => []
  | c :: cs, m =>
    match uniqueObjectName (fuel c) c m with
    | .error _ => []
    | .ok (n, m') => (c, n) :: namesOf fuel cs m'

end Verif.Keras
