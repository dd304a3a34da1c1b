import Verif.Startup.Model

/-!
# Specification: how the threads of a component start (C62)

The trace is newest first: in `a :: earlier`, `earlier` is what happened before `a`.
-/

namespace Verif.Startup

/-- `a` never happens unless all of `l` have happened before. -/
def OnlyAfter (trace : List Act) (a : Act) (l : List Act) : Prop :=
  ∀ later earlier, trace = later ++ a :: earlier → ∀ b ∈ l, b ∈ earlier

/-- The order that the initialisation functions and the interfaces of `n` interface threads are started in. -/
structure Ordered (n : Nat) (trace : List Act) : Prop where
  /-- interfaces are initialised after `pre_init` -/
  init : ∀ i, OnlyAfter trace (.init i) [.preInit]
  /-- `post_init` runs when all interfaces have been initialised -/
  post : OnlyAfter trace .postInit ((List.range n).map .init)
  /-- interfaces run after `post_init` -/
  run : ∀ i, OnlyAfter trace (.run i) [.postInit]
  serve : ∀ i, OnlyAfter trace (.serve i) [.postInit]
  /-- `run` of the control thread comes after `post_init` -/
  control : OnlyAfter trace .control [.postInit]
  /-- faults are handled after `pre_init` only -/
  handle : OnlyAfter trace .handle [.preInit]
  /-- nothing happens twice -/
  once : trace.Nodup

/-- No thread can take a step. -/
def Stuck (c : Config) (s : State) : Prop := ∀ k, step c s k = none

/-- No thread has returned from `post_main`. -/
def NoEscape (trace : List Act) : Prop := (∀ i, .escape i ∉ trace) ∧ .escapeControl ∉ trace

/-- The name of the instance has only letters, digits and underscores, and the threads have different
names. -/
def PlainNames (c : Config) : Prop :=
  sanitize c.inst = c.inst ∧ (c.ifaces.map (threadName c.inst)).Nodup

/-- An execution that never ends. -/
def Endless (c : Config) : Prop := ∃ f : Nat → State, f 0 = start c ∧ ∀ n, ∃ k, step c (f n) k = some (f (n + 1))

/-- Everything has been started: all interfaces are initialised, `post_init` and `run` of the control thread
have started, and so have all interfaces. -/
def AllStarted (c : Config) (trace : List Act) : Prop :=
  .preInit ∈ trace ∧ .postInit ∈ trace ∧ .control ∈ trace ∧
  ∀ i, i < c.ifaces.length → .init i ∈ trace ∧ .run i ∈ trace

end Verif.Startup
