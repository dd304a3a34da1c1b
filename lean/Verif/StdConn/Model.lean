import Verif.GenFiles.Model

/-!
# Model: the templates of the standard connectors

The connectors that the tool declares (`include/builtin/std_connector.camkes`), the templates that it declares for them
(`camkes/templates/templates.cmake`) and the templates that it has. What the build does with them is the area `GenFiles`.
-/

namespace Verif.StdConn

open Verif.Runner (Text)
open Verif.GenFiles

/-- A standard connector: its name and which of its sides is hardware. -/
structure Std where
  name : Text
  fromHw : Bool
  toHw : Bool
  deriving DecidableEq

/-- The connectors of include/builtin/std_connector.camkes:45-278, without numbers of threads and attributes. -/
def stds : List Std :=
  [⟨"seL4Notification".toList, false, false⟩, ⟨"seL4NotificationBind".toList, false, false⟩,
   ⟨"seL4NotificationQueue".toList, false, false⟩, ⟨"seL4NotificationNative".toList, false, false⟩,
   ⟨"seL4RPCEvent".toList, false, false⟩, ⟨"seL4RPCCall".toList, false, false⟩,
   ⟨"seL4RPCCallNoType".toList, false, false⟩, ⟨"seL4DirectCall".toList, false, false⟩,
   ⟨"seL4SharedData".toList, false, false⟩, ⟨"seL4HardwareMMIO".toList, false, true⟩,
   ⟨"seL4HardwareInterrupt".toList, true, false⟩, ⟨"seL4IOAPICHardwareInterrupt".toList, true, false⟩,
   ⟨"seL4HardwareIOPort".toList, false, true⟩, ⟨"seL4DTBHardware".toList, false, false⟩,
   ⟨"seL4DTBHW".toList, true, false⟩, ⟨"seL4InitHardware".toList, false, false⟩,
   ⟨"seL4DMASharedData".toList, false, false⟩]

/-- A call of `DeclareCAmkESConnector` (camkes.cmake:711-757) with `FROM`, `TO` and `CAKEML_TO`. -/
abbrev Decl := Text × Connector

/-- `DeclareCAmkESConnector(name FROM f TO t CAKEML_TO c)`; an argument that is not given is empty. -/
def decl (name f t c : Text) : Decl := (name, ⟨f, t, c, [], []⟩)

/-- The loop of templates.cmake:11-33. -/
def paired (c : String) : Decl := decl c.toList (c.toList ++ "-from.template.c".toList) (c.toList ++ "-to.template.c".toList) []

/-- The loop of templates.cmake:47-49. -/
def onlyFrom (c : String) : Decl := decl c.toList (c.toList ++ ".template.c".toList) [] []

/-- The loop of templates.cmake:52-54. -/
def onlyTo (c : String) : Decl := decl c.toList [] (c.toList ++ ".template.c".toList) []

/-- The declarations of templates.cmake:11-54, in their order. -/
def decls : List Decl :=
  ["seL4DirectCall", "seL4GDB", "seL4GDBMem", "seL4Notification", "seL4NotificationBind", "seL4NotificationNative",
    "seL4NotificationQueue", "seL4RPCCall", "seL4DTBHardware", "seL4InitHardware"].map paired ++
  [decl "seL4RPCCallNoType".toList "seL4RPCCall-from.template.c".toList "seL4RPCCall-to.template.c".toList
      "seL4RPCCall-to.template.cakeml".toList,
   decl "seL4RPCCall".toList [] [] "seL4RPCCall-to.template.cakeml".toList,
   decl "seL4SharedData".toList "seL4SharedData.template.c".toList "seL4SharedData.template.c".toList [],
   decl "seL4DMASharedData".toList "seL4DMASharedData.template.c".toList "seL4DMASharedData.template.c".toList []] ++
  ["seL4HardwareMMIO", "seL4HardwareIOPort"].map onlyFrom ++
  [decl "seL4DTBHW".toList [] "seL4DTBHardware-to.template.c".toList []] ++
  ["seL4HardwareInterrupt", "seL4IOAPICHardwareInterrupt"].map onlyTo

/-- The target of a connector after declarations, camkes.cmake:719-721: `none` if there is no such target. -/
def target (ds : List Decl) (name : Text) : Option Connector :=
  ds.foldl (fun o d => if d.1 = name then some (declare (o.getD ⟨[], [], [], [], []⟩) d.2) else o) none

/-- The files in /repo/camkes/templates, which `CAmkESAddTemplatesPath(.)` (templates.cmake:7) makes known as templates. -/
def files : List Text :=
  ["arch-definitions.thy", "camkes-gen.cmake", "camkesConstants.sml", "capdl-spec.cdl", "cdl-refine.thy", "cimp-base.thy",
   "component.common.c", "component.debug.c", "component.environment.c", "component.environment.end.cakeml",
   "component.environment.start.cakeml", "component.rumprun.c", "component.simple.c", "component.template.c",
   "component.template.h", "dtb-query-common.template.c", "graph.dot", "linker.lds", "root.thy", "rpc-connector-common-from.c",
   "rpc-connector-common-to.c", "rpc-connector.c", "seL4DMASharedData.template.c", "seL4DTBHardware-from.template.c",
   "seL4DTBHardware-to.template.c", "seL4DirectCall-from.template.c", "seL4DirectCall-to.template.c", "seL4GDB-from.template.c",
   "seL4GDB-to.template.c", "seL4GDBMem-from.template.c", "seL4GDBMem-to.template.c", "seL4HardwareIOPort.template.c",
   "seL4HardwareInterrupt.template.c", "seL4HardwareMMIO.template.c", "seL4IOAPICHardwareInterrupt.template.c",
   "seL4InitHardware-from.template.c", "seL4InitHardware-to.template.c", "seL4Notification-from.template.c",
   "seL4Notification-to.template.c", "seL4NotificationBind-from.template.c", "seL4NotificationBind-to.template.c",
   "seL4NotificationNative-from.template.c", "seL4NotificationNative-to.template.c", "seL4NotificationQueue-from.template.c",
   "seL4NotificationQueue-to.template.c", "seL4RPCCall-from.template.c", "seL4RPCCall-to.template.c",
   "seL4RPCCall-to.template.cakeml", "seL4SharedData.template.c"].map String.toList

/-- What the build knows after the declarations; the components have no templates of their own. -/
def envOf (ds : List Decl) (dir : Text) : Env :=
  ⟨fun n => (target ds n).getD ⟨[], [], [], [], []⟩, fun _ => [], fun _ => [], dir⟩

/-- Whether an instance has an end of the connection. -/
def touches (i : Inst) (c : Conn) : Bool := c.fromEnds.any (fun e => e.inst = i.name) || c.toEnds.any (fun e => e.inst = i.name)

/-- The calls for an instance, camkes-gen.cmake:212-315; `get_property(... TARGET t ...)` (246, 264, 268, 272) is a fatal error if
there is no target, here `none`. -/
def buildCalls (ds : List Decl) (dir : Text) (a : Asm) (i : Inst) : Option (List Call) :=
  if a.conns.any (fun c => touches i c && (target ds c.type).isNone) then none else instCalls (envOf ds dir) a i

end Verif.StdConn
