/-!
# Model: instances that share an address space (camkes/templates/camkes-gen.cmake, linker.lds,
seL4DirectCall-*.template.c)

The template `camkes-gen.cmake` turns an assembly into build rules. Modelled here are the parts that
decide which instances are linked into which ELF image, how each instance is linked before that, how
`objcopy` is told to rename and hide the symbols of an instance, and what follows from that when the
instances of an image are linked.

Not part of the repository, and so taken as assumptions about the tools: what `objcopy` does with
`--redefine-sym` and `--keep-global-symbol` (`objcopy` below), and how the linker binds references
between objects (`link`). Weak, common and section symbols are left out: an object has global
definitions and undefined references.
-/

namespace Verif.Colocate

/-- A component instance after flattening: its name, its address space and whether its type is a
hardware component (camkes/ast/objects.py:357-381). Instances are told apart by their index, which
stands for Python's `id`. -/
structure Inst where
  name : String
  space : String
  hardware : Bool
  deriving DecidableEq, Repr

/-- An end of a connection: the index of the instance, the name of the interface and the names of the
methods of the type of the interface (camkes/ast/objects.py:527-577). -/
structure End where
  inst : Nat
  iface : String
  methods : List String
  deriving DecidableEq, Repr

/-- A connection (camkes/ast/objects.py:384-398). -/
structure Conn where
  name : String
  type : String
  fromEnds : List End
  toEnds : List End
  deriving DecidableEq, Repr

/-- `composition.instances` and `composition.connections`, camkes/templates/camkes-gen.cmake:42-43. -/
structure Comp where
  insts : List Inst
  conns : List Conn
  deriving DecidableEq, Repr

/-- An instance with its index. -/
abbrev Numbered := Nat × Inst

/-- `enumerate(instances)`: not in the template, which uses `id`. -/
def numbered (c : Comp) : List Numbered := (List.range c.insts.length).zip c.insts

/-- `for i in instances if not i.type.hardware`, camkes/templates/camkes-gen.cmake:184,398,486. -/
def software (c : Comp) : List Numbered := (numbered c).filter fun x => !x.2.hardware

/-- The collection of which `groups` is the set, camkes/templates/camkes-gen.cmake:48. In which order
a Python set is iterated over is not determined, therefore `groups` is a parameter below. -/
def spaces (c : Comp) : List String := (software c).map fun x => x.2.space

/-- `'%s_group_bin' % g`, camkes/templates/camkes-gen.cmake:481,487,530. -/
def elfName (g : String) : String := g ++ "_group_bin"

/-- The instances of a group, camkes/templates/camkes-gen.cmake:486-495. -/
def members (c : Comp) (g : String) : List Numbered :=
  (software c).filter fun x => elfName g == elfName x.2.space

/-- The list `capdl_elfs`, camkes/templates/camkes-gen.cmake:526-533. -/
def capdlElfs (groups : List String) : List String := groups.map elfName

/-- The list `key_names`, camkes/templates/camkes-gen.cmake:480-482. -/
def keyNames (groups : List String) : List String := groups

/-- The list `grouped` of the template: whether the instance is linked with `--relocatable`,
camkes/templates/camkes-gen.cmake:381-389. The same loop is in camkes/templates/linker.lds:17-21. Note
that the condition of the loop asks for the type of `i`, not for that of `inst`. -/
def grouped (c : Comp) (k : Nat) (i : Inst) : Bool :=
  (numbered c).any fun x => !i.hardware && (k != x.1 && x.2.space == i.space)

/-- camkes/templates/linker.lds:22-41: constructors are collected in the object of the instance. -/
def collectsConstructors (c : Comp) (k : Nat) (i : Inst) : Bool := grouped c k i

/-- camkes/templates/linker.lds:57-73: the linker script defines the symbols of the thread local
storage. -/
def definesTls (c : Comp) (k : Nat) (i : Inst) (rump : Bool) : Bool := !grouped c k i && !rump

/-- Options of `objcopy`. -/
inductive Opt where
  /-- `--redefine-sym "a=b"` -/
  | redefine (a b : String)
  /-- `--keep-global-symbol a` -/
  | keep (a : String)
  deriving DecidableEq, Repr

/-- `c.type.name == 'seL4DirectCall'`, camkes/templates/camkes-gen.cmake:422. -/
def direct (c : Conn) : Bool := c.type == "seL4DirectCall"

/-- `e.interface.name ++ '_' ++ m.name`: the name that the code of an instance uses for a method,
camkes/templates/camkes-gen.cmake:430,446. -/
def local_ (e : End) (m : String) : String := e.iface ++ "_" ++ m

/-- The name of a method between the instances, camkes/templates/camkes-gen.cmake:430,446,447. -/
def shared (c : Conn) (m : String) : String := "camkes connection " ++ (c.name ++ "_" ++ m)

/-- The options for a `from` end, camkes/templates/camkes-gen.cmake:429-431. -/
def fromOpts (c : Conn) (e : End) : List Opt :=
  e.methods.map fun m => .redefine (local_ e m) (shared c m)

/-- The options for a `to` end, camkes/templates/camkes-gen.cmake:445-448. -/
def toOpts (c : Conn) (e : End) : List Opt :=
  e.methods.flatMap fun m => [.redefine (local_ e m) (shared c m), .keep (shared c m)]

/-- `'%s_%s' % (i.name, e.interface.name)`, camkes/templates/camkes-gen.cmake:441,444. -/
def key (i : Inst) (e : End) : String := i.name ++ "_" ++ e.iface

/-- The loop over the `to` ends, camkes/templates/camkes-gen.cmake:439-450, with the set
`instancelist`. -/
def toLoop (k : Nat) (i : Inst) (c : Conn) : List End → List String → List Opt × List String
  | [], seen => ([], seen)
  | e :: es, seen =>
    if e.inst == k then
      if seen.contains (key i e) then toLoop k i c es seen
      else
        let r := toLoop k i c es (key i e :: seen)
        (toOpts c e ++ r.1, r.2)
    else toLoop k i c es seen

/-- The loop over the connections, camkes/templates/camkes-gen.cmake:421-452. -/
def connLoop (k : Nat) (i : Inst) : List Conn → List String → List Opt × List String
  | [], seen => ([], seen)
  | c :: cs, seen =>
    if direct c then
      let froms := (c.fromEnds.filter fun e => e.inst == k).flatMap (fromOpts c)
      let r := toLoop k i c c.toEnds seen
      let rs := connLoop k i cs r.2
      (froms ++ r.1 ++ rs.1, rs.2)
    else connLoop k i cs seen

/-- The name of the entry point after renaming, camkes/templates/camkes-gen.cmake:419. -/
def start (i : Inst) : String := "camkes " ++ (i.name ++ " _camkes_start")

/-- The options of `objcopy` for one instance, camkes/templates/camkes-gen.cmake:405-452. -/
def instOpts (c : Comp) (k : Nat) (i : Inst) (seen : List String) : List Opt × List String :=
  let r := connLoop k i c.conns seen
  (.keep "" :: .redefine "_camkes_start" (start i) :: r.1, r.2)

/-- The loop over the instances, camkes/templates/camkes-gen.cmake:397-472: `instancelist` is shared
by all of them. -/
def optLoop (c : Comp) : List Numbered → List String → List (Nat × List Opt)
  | [], _ => []
  | x :: xs, seen =>
    let r := instOpts c x.1 x.2 seen
    (x.1, r.1) :: optLoop c xs r.2

/-- The options of `objcopy` for the instance of index `k`. -/
def opts (c : Comp) (k : Nat) : List Opt := ((optLoop c (software c) []).lookup k).getD []

/-- An object: the names of its global definitions and of its undefined references. -/
structure Obj where
  defs : List String
  refs : List String
  deriving DecidableEq, Repr

/-- What can go wrong. -/
inductive Err where
  /-- `objcopy`: a symbol is redefined twice, or is the target of two redefinitions -/
  | redefined
  /-- the linker: a symbol has two definitions -/
  | multiple
  /-- the linker: a reference has no definition -/
  | undefined
  deriving DecidableEq, Repr

/-- The redefinitions among the options. -/
def redefs : List Opt → List (String × String)
  | [] => []
  | .redefine a b :: os => (a, b) :: redefs os
  | .keep _ :: os => redefs os

/-- The symbols that stay global. -/
def keeps : List Opt → List String
  | [] => []
  | .redefine _ _ :: os => keeps os
  | .keep a :: os => a :: keeps os

/-- A symbol after `objcopy`: the name that it has now, and the name that it had. -/
abbrev Sym := String × String

/-- An object after `objcopy`. -/
structure Copy where
  globals : List Sym
  locals : List Sym
  refs : List Sym
  deriving DecidableEq, Repr

/-- The new name of a symbol (`objcopy`, an assumption). -/
def rename (rs : List (String × String)) (s : String) : String := (rs.lookup s).getD s

/-- `objcopy` (an assumption about the tool): it refuses two redefinitions of one symbol and two
symbols redefined as the same one; then symbols are renamed; if there is any symbol that must be
kept global, all definitions that are not among these become local. -/
def objcopy (os : List Opt) (o : Obj) : Except Err Copy :=
  let rs := redefs os
  if (rs.map Prod.fst).Nodup ∧ (rs.map Prod.snd).Nodup then
    let ds := o.defs.map fun s => (rename rs s, s)
    let stays := fun (s : Sym) => (keeps os).isEmpty || (keeps os).contains s.1
    .ok ⟨ds.filter stays, ds.filter (fun s => !stays s), o.refs.map fun s => (rename rs s, s)⟩
  else .error .redefined

/-- A symbol of an instance, by the name that the code of the instance uses. -/
abbrev Own := Nat × String

/-- The copies of several instances, camkes/templates/camkes-gen.cmake:402-453. -/
def copies (c : Comp) (objs : Nat → Obj) : List Numbered → Except Err (List (Nat × Copy))
  | [] => .ok []
  | x :: xs =>
    match objcopy (opts c x.1) (objs x.1) with
    | .error e => .error e
    | .ok o =>
      match copies c objs xs with
      | .error e => .error e
      | .ok os => .ok ((x.1, o) :: os)

/-- The global definitions of the objects that are linked. -/
def globals (os : List (Nat × Copy)) : List (String × Own) :=
  os.flatMap fun o => o.2.globals.map fun s => (s.1, (o.1, s.2))

/-- The references of the objects that are linked. -/
def references (os : List (Nat × Copy)) : List (String × Own) :=
  os.flatMap fun o => o.2.refs.map fun s => (s.1, (o.1, s.2))

/-- References are bound to the definitions with the same name (the linker, an assumption). -/
def bind (ds : List (String × Own)) : List (String × Own) → Except Err (List (Own × Own))
  | [] => .ok []
  | r :: rs =>
    match ds.lookup r.1 with
    | none => .error .undefined
    | some d =>
      match bind ds rs with
      | .error e => .error e
      | .ok bs => .ok ((r.2, d) :: bs)

/-- The linker (an assumption): no two global definitions of the same name, and every reference is
bound. -/
def link (os : List (Nat × Copy)) : Except Err (List (Own × Own)) :=
  if ((globals os).map Prod.fst).Nodup then bind (globals os) (references os) else .error .multiple

/-- The image of a group. -/
inductive Image where
  /-- the copy of an instance, camkes/templates/camkes-gen.cmake:508-516 -/
  | copied (o : List (Nat × Copy))
  /-- several instances linked; every reference with the definition that it is bound to,
  camkes/templates/camkes-gen.cmake:498-507 -/
  | linked (b : List (Own × Own))
  deriving DecidableEq, Repr

/-- The image of a group, camkes/templates/camkes-gen.cmake:479-518. -/
def image (c : Comp) (objs : Nat → Obj) (g : String) : Except Err Image :=
  match copies c objs (members c g) with
  | .error e => .error e
  | .ok os =>
    if (members c g).length > 1 then
      match link os with
      | .error e => .error e
      | .ok b => .ok (.linked b)
    else .ok (.copied os)

/-- The templates of the connector, camkes/templates/seL4DirectCall-from.template.c:13-17 and
seL4DirectCall-to.template.c:13-17, for the end `me` of the connection: an error for an end that is in
another address space. `spaceOf` gives the address space of an instance. -/
def rendersEnd (spaceOf : Nat → String) (c : Conn) (me : End) : Bool :=
  (c.fromEnds ++ c.toEnds).all fun e => !(spaceOf e.inst != spaceOf me.inst)

/-- Both templates of a connection: one is rendered for every end. -/
def renders (spaceOf : Nat → String) (c : Conn) : Bool :=
  (c.fromEnds ++ c.toEnds).all (rendersEnd spaceOf c)

/-- The symbol at which the control thread of an instance starts,
camkes/templates/component.common.c:468. -/
def entrySymbol (i : Inst) : String := "camkes " ++ (i.name ++ " _camkes_start")

end Verif.Colocate
