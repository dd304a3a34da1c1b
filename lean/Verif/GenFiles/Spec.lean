import Verif.GenFiles.Model

/-!
# Specification: the files that are generated for a build

The files that an instance needs, each with its place, the item it is rendered for, its template, and
whether it is compiled; and the headers that `camkes.h` includes.
-/

namespace Verif.GenFiles.Spec

open Verif.GenFiles
open Verif.Runner (Text)

/-- What happens to a generated file: it is compiled as C, it is compiled as CakeML, or it is used by
others. -/
inductive Kind
  | c | cakeml | used
  deriving DecidableEq, Repr

/-- A generated file. -/
structure File where
  path : Text
  item : Text
  template : Text
  kind : Kind
  deriving DecidableEq, Repr

/-- A file of an instance: `<dir>/<instance>/<name>`. -/
def place (env : Env) (i : Inst) (name : Text) : Text := env.dir ++ "/".toList ++ i.name ++ "/".toList ++ name

/-- The name of the files of an end: `<interface>_<type>_<number>`. -/
def stem (iface type : Text) (k : Nat) : Text :=
  iface ++ "_".toList ++ type ++ "_".toList ++ Nat.toDigits 10 k

/-- The item of an instance. -/
def ofInst (i : Inst) : Text := "component/".toList ++ i.name

/-- The item of an end. -/
def ofEnd (c : Conn) (dir : String) (k : Nat) : Text :=
  "connector/".toList ++ c.name ++ "/".toList ++ dir.toList ++ "/".toList ++ Nat.toDigits 10 k

/-- The code of the instance is C, in any case of letters. Without the setting it is C. -/
def IsC (i : Inst) : Prop := i.environment = none ∨ ∃ t, i.environment = some t ∧ t.map Char.toLower = "c".toList

/-- The code of the instance is CakeML. -/
def IsCakeML (i : Inst) : Prop := ∃ t, i.environment = some t ∧ t.map Char.toLower = "cakeml".toList

/-- The end `k` of the `from` side of `c` is `e`, and it belongs to the instance. -/
def FromEnd (i : Inst) (c : Conn) (k : Nat) (e : CEnd) : Prop := c.fromEnds[k]? = some e ∧ e.inst = i.name

/-- The end `k` of the `to` side of `c` is `e`, and it belongs to the instance. -/
def ToEnd (i : Inst) (c : Conn) (k : Nat) (e : CEnd) : Prop := c.toEnds[k]? = some e ∧ e.inst = i.name

/-- The files an instance needs. -/
inductive Wanted (env : Env) (a : Asm) (i : Inst) : File → Prop
  | entry : Wanted env a i ⟨place env i "camkes.c".toList, ofInst i, "component.common.c".toList, .c⟩
  | header : Wanted env a i ⟨place env i ("include/".toList ++ "camkes-component-".toList ++ i.name ++ ".h".toList),
      ofInst i, "component.template.h".toList, .used⟩
  | linker : Wanted env a i ⟨place env i "linker.lds".toList, ofInst i, "linker.lds".toList, .used⟩
  | c : IsC i → Wanted env a i
      ⟨place env i "camkes.environment.c".toList, ofInst i, "component.environment.c".toList, .c⟩
  | mlStart : IsCakeML i → Wanted env a i
      ⟨place env i "camkesStartScript.sml".toList, ofInst i, "component.environment.start.cakeml".toList, .cakeml⟩
  | mlConstants : IsCakeML i → Wanted env a i
      ⟨place env i "camkesConstants.sml".toList, ofInst i, "camkesConstants.sml".toList, .cakeml⟩
  | mlEnd : IsCakeML i → Wanted env a i
      ⟨place env i "camkesEndScript.sml".toList, ofInst i, "component.environment.end.cakeml".toList, .cakeml⟩
  | from_ (c : Conn) (k : Nat) (e : CEnd) : c ∈ a.conns → FromEnd i c k e → Wanted env a i
      ⟨place env i (stem e.iface c.type k ++ ".c".toList), ofEnd c "from" k, (env.connector c.type).from_, .c⟩
  | fromHeader (c : Conn) (k : Nat) (e : CEnd) : c ∈ a.conns → FromEnd i c k e →
      (env.connector c.type).fromHeader ≠ [] → Wanted env a i
      ⟨place env i ("include/".toList ++ stem e.iface c.type k ++ ".h".toList), ofEnd c "from" k,
        (env.connector c.type).fromHeader, .used⟩
  | to_ (c : Conn) (k : Nat) (e : CEnd) : c ∈ a.conns → ToEnd i c k e →
      (¬ IsCakeML i ∨ (env.connector c.type).cakemlTo = []) → Wanted env a i
      ⟨place env i (stem e.iface c.type k ++ ".c".toList), ofEnd c "to" k, (env.connector c.type).to_, .c⟩
  | toHeader (c : Conn) (k : Nat) (e : CEnd) : c ∈ a.conns → ToEnd i c k e → ¬ IsCakeML i →
      (env.connector c.type).toHeader ≠ [] → Wanted env a i
      ⟨place env i ("include/".toList ++ stem e.iface c.type k ++ ".h".toList), ofEnd c "to" k,
        (env.connector c.type).toHeader, .used⟩
  | toCakeML (c : Conn) (k : Nat) (e : CEnd) : c ∈ a.conns → ToEnd i c k e → IsCakeML i →
      (env.connector c.type).cakemlTo ≠ [] → Wanted env a i
      ⟨place env i "connectorScript.sml".toList, ofEnd c "to" k, (env.connector c.type).cakemlTo, .cakeml⟩
  | userSource (t : Text) : t ∈ env.templateSources i.type → Wanted env a i
      ⟨place env i (baseName t), ofInst i, t, .c⟩
  | userHeader (t : Text) : t ∈ env.templateHeaders i.type → Wanted env a i
      ⟨place env i ("include/".toList ++ baseName t), ofInst i, t, .used⟩
  | single : i.singleThreaded = true → Wanted env a i
      ⟨place env i "seL4SingleThreadedComponent.template.c".toList, ofInst i,
        "seL4SingleThreadedComponent.template.c".toList, .c⟩
  | singleHeader : i.singleThreaded = true → Wanted env a i
      ⟨place env i "include/seL4SingleThreadedComponent.template.h".toList, ofInst i,
        "seL4SingleThreadedComponent.template.h".toList, .c⟩
  | debug : i.debug = true → Wanted env a i
      ⟨place env i "camkes.debug.c".toList, ofInst i, "component.debug.c".toList, .c⟩
  | simple : i.simple = true → Wanted env a i
      ⟨place env i "camkes.simple.c".toList, ofInst i, "component.simple.c".toList, .c⟩
  | rump : i.rump = true → Wanted env a i
      ⟨place env i "camkes.rumprun.c".toList, ofInst i, "component.rumprun.c".toList, .c⟩

/-- The headers that `camkes.h` includes, after the header of the component. -/
inductive Header (env : Env) (a : Asm) (i : Inst) : Text → Prop
  | from_ (c : Conn) (k : Nat) (e : CEnd) : c ∈ a.conns → FromEnd i c k e →
      (env.connector c.type).fromHeader ≠ [] → Header env a i (stem e.iface c.type k ++ ".h".toList)
  | to_ (c : Conn) (k : Nat) (e : CEnd) : c ∈ a.conns → ToEnd i c k e → ¬ IsCakeML i →
      (env.connector c.type).toHeader ≠ [] → Header env a i (stem e.iface c.type k ++ ".h".toList)
  | user (t : Text) : t ∈ env.templateHeaders i.type → Header env a i (baseName t)
  | single : i.singleThreaded = true → Header env a i "seL4SingleThreadedComponent.template.h".toList

/-- The graph of the assembly. -/
def graph (env : Env) : File := ⟨env.dir ++ "/graph.dot".toList, "assembly/".toList, "graph.dot".toList, .used⟩

/-- A text that is one element of a list of CMake. -/
def Clean (t : Text) : Prop := t ≠ [] ∧ ';' ∉ t

/-- No name in the build contains a semicolon. -/
structure Named (env : Env) (a : Asm) : Prop where
  dir : ';' ∉ env.dir
  inst : ∀ i ∈ a.insts, ';' ∉ i.name
  conn : ∀ c ∈ a.conns, ';' ∉ c.name ∧ ';' ∉ c.type
  fromEnd : ∀ c ∈ a.conns, ∀ e ∈ c.fromEnds, ';' ∉ e.iface
  toEnd : ∀ c ∈ a.conns, ∀ e ∈ c.toEnds, ';' ∉ e.iface
  sources : ∀ i ∈ a.insts, ∀ t ∈ env.templateSources i.type, Clean t
  headers : ∀ i ∈ a.insts, ∀ t ∈ env.templateHeaders i.type, Clean t

/-- Every file that an instance of software needs has one template. -/
def HasTemplates (env : Env) (a : Asm) : Prop :=
  ∀ i ∈ a.insts, i.hardware = false → ∀ f, Wanted env a i f → Clean f.template

/-- The instances that are built. -/
def software (a : Asm) : List Inst := a.insts.filter fun i => i.hardware = false

/-- The names can be told apart: instances and connections have different names without slashes, names of
connector types have no underscore, names of interfaces no hyphen, and an instance does not have two
interfaces of the same name at ends of the same number in connections of the same type. There are no
templates of the user, and no templates for CakeML. -/
structure Apart (env : Env) (a : Asm) : Prop where
  insts : (a.insts.map (·.name)).Nodup
  slash : ∀ i ∈ a.insts, '/' ∉ i.name
  underscore : ∀ c ∈ a.conns, '_' ∉ c.type
  hyphen : ∀ c ∈ a.conns, (∀ e ∈ c.fromEnds, '-' ∉ e.iface ∧ '/' ∉ e.iface) ∧ ∀ e ∈ c.toEnds, '-' ∉ e.iface ∧ '/' ∉ e.iface
  sources : ∀ i ∈ a.insts, env.templateSources i.type = []
  headers : ∀ i ∈ a.insts, env.templateHeaders i.type = []
  cakeml : ∀ c ∈ a.conns, (env.connector c.type).cakemlTo = []
  sides : ∀ c ∈ a.conns, ∀ c' ∈ a.conns, c.type = c'.type → ∀ (k : Nat) (e e' : CEnd), c.fromEnds[k]? = some e →
    c'.toEnds[k]? = some e' → e.inst = e'.inst → e.iface ≠ e'.iface
  fromOnce : ∀ (m m' : Nat) (c c' : Conn), a.conns[m]? = some c → a.conns[m']? = some c' → c.type = c'.type →
    ∀ (k : Nat) (e e' : CEnd), c.fromEnds[k]? = some e → c'.fromEnds[k]? = some e' → e.inst = e'.inst →
      e.iface = e'.iface → m = m'
  toOnce : ∀ (m m' : Nat) (c c' : Conn), a.conns[m]? = some c → a.conns[m']? = some c' → c.type = c'.type →
    ∀ (k : Nat) (e e' : CEnd), c.toEnds[k]? = some e → c'.toEnds[k]? = some e' → e.inst = e'.inst →
      e.iface = e'.iface → m = m'

/-- The lists that are given to the runner, side by side. -/
def triples (s : State) : List (Text × Text × Text) := s.items.zip (s.outfiles.zip s.templates)

/-- What the runner is told about a file. -/
def File.triple (f : File) : Text × Text × Text := (f.item, f.path, f.template)

/-- What is built for an instance is what it needs. -/
def BuiltFor (env : Env) (a : Asm) (i : Inst) (b : Build) : Prop :=
  b.inst = i.name ∧
  (∀ p, p ∈ b.sources ↔ ∃ f, Wanted env a i f ∧ f.kind = .c ∧ f.path = p) ∧
  (∀ p, p ∈ b.cakeml ↔ ∃ f, Wanted env a i f ∧ f.kind = .cakeml ∧ f.path = p) ∧
  (∀ p, p ∈ b.files ↔ ∃ f, Wanted env a i f ∧ f.path = p) ∧
  ∃ hs : List Text, (∀ x, x ∈ hs ↔ Header env a i x) ∧
    b.header = "#pragma once\n\n#include \"".toList ++ ("camkes-component-".toList ++ i.name ++ ".h".toList) ++
      "\"\n".toList ++ hs.flatMap fun x => "#include \"".toList ++ x ++ "\"\n".toList

/-- A word that is no option of `CAmkESGen`. -/
def NoOption (t : Text) : Prop := t ≠ "SOURCE".toList ∧ t ≠ "C_STYLE".toList ∧ t ≠ "SOURCES_VAR".toList

end Verif.GenFiles.Spec
