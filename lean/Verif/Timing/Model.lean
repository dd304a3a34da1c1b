/-!
# Time stamps of a connector

Model of `libsel4camkes/include/camkes/timing.h`: the buffer of time stamps that `TIMING_DEFS`
defines for an interface, `TIMESTAMP` and the functions `…_timing_get_points`,
`…_timing_get_entry` and `…_timing_reset`.
-/

namespace Verif.Timing

/-- `TIMING_ENTRIES`, `timing.h:23`. -/
abbrev entries : Nat := 4096

/-- `SIZE_MAX + 1` on a machine of 64 bits. -/
abbrev wordMod : Nat := 2 ^ 64

/-- `INT_MAX`. -/
abbrev intMax : Int := 2 ^ 31 - 1

/-- The variables of `TIMING_DEFS` and those of the uses of `TIMESTAMP`, `timing.h:26-27,52-53`.
`index s` is `none` while `noted` is false at the use `s` of the macro. -/
structure State where
  iteration : Int
  buffer : List Nat
  index : Nat → Option Nat

/-- The state at the start, `timing.h:26-27,52`. -/
def start : State := ⟨-1, List.replicate entries 0, fun _ => none⟩

/-- The loop that compares names, `timing.h:55-59`: the first place of the name, or the number of
points. -/
def find (points : List String) (p : String) : Nat :=
  match points with
  | [] => 0
  | q :: l => if q = p then 0 else find l p + 1

/-- An `int` in arithmetic with `size_t`: it is converted modulo the size of a word. -/
def toSize (i : Int) : Nat := (i % wordMod).toNat

/-- `libsel4camkes_timing_buffer_iteration * ARRAY_SIZE(libsel4camkes_timing_points) + index`,
`timing.h:67-68`. -/
def slot (points : List String) (iteration : Int) (index : Nat) : Nat :=
  (toSize iteration * points.length + index) % wordMod

/-- Where the state goes wrong: an assertion fails, or a number overflows or an array is used
outside its bounds (then C gives the program no meaning). -/
inductive Fault | assertion | undefined
  deriving DecidableEq, Repr

/-- The index of the point at the use `site` of the macro, `timing.h:52-62`: the one that was noted
there, or the one that is found; `none` where the assertion fails. -/
def indexAt (points : List String) (site : Nat) (point : String) (s : State) : Option Nat :=
  match s.index site with
  | some i => some i
  | none => if find points point < points.length then some (find points point) else none

/-- `TIMESTAMP(point)` at the use `site` of the macro, with the cycle count `now`,
`timing.h:50-70`.  `sel4bench_init` is left out. -/
def stamp (points : List String) (site : Nat) (point : String) (now : Nat) (s : State) :
    Except Fault State :=
  match indexAt points site point s with
  | none => .error .assertion
  | some i =>
    let s1 : State := { s with index := fun x => if x = site then some i else s.index x }
    -- timing.h:63-66
    if i = 0 ∧ s.iteration = intMax then .error .undefined
    else
      let it := if i = 0 then s.iteration + 1 else s.iteration
      -- timing.h:67-69
      if slot points it i < entries then
        .ok { s1 with iteration := it, buffer := s.buffer.set (slot points it i) now }
      else .ok { s1 with iteration := it }

/-- `…_timing_reset`, `timing.h:45-48`. -/
def reset (s : State) : State :=
  { s with iteration := -1, buffer := List.replicate entries 0 }

/-- `…_timing_get_entry`, `timing.h:35-44`.  `iteration` is an `unsigned`. -/
def getEntry (points : List String) (iteration : Nat) (point : String) (s : State) :
    Except Fault Nat :=
  if iteration * points.length % wordMod < entries then
    if find points point < points.length then
      match s.buffer[(iteration * points.length + find points point) % wordMod]? with
      | some v => .ok v
      | none => .error .undefined
    else .ok 0
  else .error .assertion

/-- `…_timing_get_points`, `timing.h:31-34`. -/
def getPoints (points : List String) : List String × Nat := (points, points.length)

/-- What a program does with the time stamps of an interface: it comes to a use of `TIMESTAMP`
when the cycle count is `now`, or calls `…_timing_reset`. -/
inductive Event
  | stamp (site now : Nat)
  | reset
  deriving DecidableEq, Repr

/-- One event; `nameAt` gives the point that stands at a use of the macro. -/
def step (points : List String) (nameAt : Nat → String) (s : State) : Event → Except Fault State
  | .stamp site now => stamp points site (nameAt site) now s
  | .reset => .ok (reset s)

/-- A run from a state. -/
def runFrom (points : List String) (nameAt : Nat → String) : State → List Event → Except Fault State
  | s, [] => .ok s
  | s, e :: l => match step points nameAt s e with
    | .error f => .error f
    | .ok s' => runFrom points nameAt s' l

/-- A run from the start. -/
def run (points : List String) (nameAt : Nat → String) (l : List Event) : Except Fault State :=
  runFrom points nameAt start l

/-- The names of the functions that `TIMING_DEFS(pref, …)` defines, `timing.h:31,35,45` where
`CONFIG_CAMKES_CONNECTOR_TIMING` is set, else `timing.h:75,79,82`. -/
def definedNames (timing : Bool) (pref : List Char) : List (List Char) :=
  if timing then
    [pref ++ "_timing_get_points".toList, pref ++ "_timing_get_entry".toList,
     pref ++ "_timing_reset".toList]
  else
    [pref ++ "timing_get_points".toList, pref ++ "timing_get_entry".toList,
     pref ++ "timing_reset".toList]

/-- The names of these functions in the header of a component, for an interface `i`,
`camkes/templates/component.template.h:258-260`. -/
def declaredNames (i : List Char) : List (List Char) :=
  [i ++ "_timing_get_points".toList, i ++ "_timing_get_entry".toList,
   i ++ "_timing_reset".toList]

end Verif.Timing
