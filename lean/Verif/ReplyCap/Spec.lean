import Verif.ReplyCap.Model

/-!
# Specification: reply capabilities (C54, C56)
-/

namespace Verif.ReplyCap

/-- The errors of the attempts to save the reply capability since it was declared. -/
def savesSinceDeclare : List Event → List Nat
  | [] => []
  | .declared :: _ => []
  | .saved e :: es => e :: savesSinceDeclare es
  | _ :: es => savesSinceDeclare es

/-- Something was declared. -/
def Declared (es : List Event) : Prop := .declared ∈ es

/-- C54, for what happened so far: at most one attempt to save for each declaration, and what unprotecting
reports is the result of it. -/
def Reported : List Event → Prop
  | [] => True
  | .saved _ :: es => savesSinceDeclare es = [] ∧ Declared es ∧ Reported es
  | .unprotected e :: es => (Declared es → savesSinceDeclare es = [e]) ∧ Reported es
  | _ :: es => Reported es

/-- Each wait happens only after the reply capability was saved. -/
def SavedBeforeWait : List Event → Prop
  | [] => True
  | .waited :: es => savesSinceDeclare es ≠ [] ∧ SavedBeforeWait es
  | _ :: es => SavedBeforeWait es

/-- The client whose request is being handled. -/
def current : List Event → Option Nat
  | [] => none
  | .got c :: _ => some c
  | _ :: es => current es

/-- The clients that the server has answered, in its own opinion. -/
def answered : List Event → List (Option Nat)
  | [] => []
  | .answer :: es => current es :: answered es
  | _ :: es => answered es

/-- The clients whose call has returned. -/
def returned : List Event → List (Option Nat)
  | [] => []
  | .returned c :: es => some c :: returned es
  | _ :: es => returned es

/-- What a server does that cooperates: it protects before waiting, saving works, and requests are dropped
only before anything was saved (`saved` tells whether it was), in a program without assertions. -/
def Cooperative (b : Build) : Bool → List Act → Prop
  | _, [] => True
  | _, .protectedWait fail :: as => fail = 0 ∧ Cooperative b true as
  | _, .plainWait :: _ => False
  | _, .reply _ :: as => Cooperative b false as
  | saved, .discard _ :: as => b.asserts = false ∧ saved = false ∧ Cooperative b false as

end Verif.ReplyCap
