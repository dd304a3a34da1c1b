import Mathlib.Tactic.ByContra
import Mathlib.Tactic.Tauto
import Mathlib.Data.List.Basic

/-!
# Model: sockets of another component (C68)

The system calls on sockets (libsel4camkes/src/sys_socket.c and sys_io.c:39-126) in a component whose sockets live in
another component, the server, with which it shares the memory `sock_data`. The functions of the server are there.

Outside: what the server answers (`ans`, and for `read` what it has put into the shared memory), what the original
system calls do with files, and which descriptor `allocate_fd` chooses (`fresh`). Bytes are numbers.
-/

namespace Verif.Sockets

/-- What a descriptor stands for (`muslcsys_fd_t`). -/
inductive Entry
  | socket (n : Int)
  | file
  deriving DecidableEq

/-- The functions of the server that take data from the shared memory. -/
inductive Kind
  | bind
  | connect
  | setsockopt
  deriving DecidableEq

/-- The functions of the server. -/
inductive Op
  | socket
  | accept
  | close
  | listen
  | write
  | read
  | send (k : Kind)
  deriving DecidableEq

/-- A call of the server: the function, the socket (none for `socket`), the last argument, and what the shared memory
begins with. -/
structure Asked where
  op : Op
  sock : Option Int
  arg : Nat
  sent : List Nat
  deriving DecidableEq

/-- System calls, with what is answered from outside. -/
inductive Call
  | socket (ans : Int)
  | accept (fd : Nat) (ans : Int)
  | close (fd : Nat)
  | listen (fd backlog : Nat) (ans : Int)
  | send (k : Kind) (fd : Nat) (data : List Nat) (ans : Int)
  | write (fd : Nat) (data : List Nat) (ans : Int)
  | read (fd count : Nat) (ans : Int) (filled : List Nat)
  /-- a file is opened -/
  | openFile
  deriving DecidableEq

/-- What the caller sees. -/
inductive Out
  | ret (n : Int)
  /-- for `read`: the result and the bytes in the buffer -/
  | got (n : Int) (bytes : List Nat)
  /-- memory is read or written that does not belong to the buffers -/
  | fault
  deriving DecidableEq

/-- The descriptors. -/
abbrev Table := Nat → Option Entry

def Table.set (t : Table) (fd : Nat) (e : Option Entry) : Table := fun x => if x = fd then e else t x

/-- The component: the size of the shared memory, `PAGE_SIZE_4K` and `allocate_fd`. -/
structure Env where
  cap : Nat
  page : Nat
  fresh : Table → Nat

/-- A system call: the table afterwards, how the server was called, and what the caller sees. -/
def step (e : Env) (t : Table) : Call → Table × Option Asked × Out
  -- `camkes_sys_socket`, sys_socket.c:20-40
  | .socket ans => (t.set (e.fresh t) (some (.socket ans)), some ⟨.socket, none, 0, []⟩, .ret (e.fresh t))
  -- `camkes_sys_accept`, sys_socket.c:105-154, where `addr` is `NULL`
  | .accept fd ans =>
    match t fd with
    | some (.socket s) =>
      if ans = -1 then (t, some ⟨.accept, some s, 0, []⟩, .ret (-1))
      else (t.set (e.fresh t) (some (.socket ans)), some ⟨.accept, some s, 0, []⟩, .ret (e.fresh t))
    | _ => (t, none, .fault)
  -- `camkes_sys_close`, sys_io.c:40-59
  | .close fd =>
    match t fd with
    | some (.socket s) => (t.set fd none, some ⟨.close, some s, 0, []⟩, .ret 0)
    | some .file => (t.set fd none, none, .ret 0)
    | none => (t, none, .ret (-1))
  -- `camkes_sys_listen`, sys_socket.c:86-102
  | .listen fd backlog ans =>
    match t fd with
    | some (.socket s) => (t, some ⟨.listen, some s, backlog, []⟩, .ret ans)
    | _ => (t, none, .fault)
  -- `camkes_sys_bind`, `camkes_sys_connect` and `camkes_sys_setsockopt`, sys_socket.c:43-61, 64-83 and 157-179
  | .send k fd data ans =>
    match t fd with
    | some (.socket s) => if data.length ≤ e.cap then (t, some ⟨.send k, some s, data.length, data⟩, .ret ans) else (t, none, .fault)
    | _ => (t, none, .fault)
  -- `camkes_sys_write`, sys_io.c:62-98
  | .write fd data ans =>
    match t fd with
    | some (.socket s) =>
      let size := if data.length > e.page then e.page else data.length
      (t, some ⟨.write, some s, size, data.take size⟩, .ret ans)
    | _ => (t, none, .ret ans)
  -- `camkes_sys_read`, sys_io.c:101-126; `ret` bytes are copied to the buffer of `count` bytes
  | .read fd count ans filled =>
    match t fd with
    | some (.socket s) =>
      let size := if count > e.page then e.page else count
      (t, some ⟨.read, some s, size, []⟩, if ans < 0 ∨ ans > count then .fault else .got ans (filled.take ans.toNat))
    | _ => (t, none, .ret ans)
  | .openFile => (t.set (e.fresh t) (some .file), none, .ret (e.fresh t))

/-- A call with what happened. -/
structure Item where
  call : Call
  asked : Option Asked
  out : Out
  deriving DecidableEq

/-- The descriptors at the start: the standard ones. -/
def start : Table := fun fd => if fd < 3 then some .file else none

/-- A history, the last call first. -/
def run (e : Env) : List Call → Table × List Item
  | [] => (start, [])
  | c :: cs =>
    let r := run e cs
    let s := step e r.1 c
    (s.1, ⟨c, s.2.1, s.2.2⟩ :: r.2)

/-- What `camkes_sys_write` returns for a descriptor that is not a socket, sys_io.c:79-97: `orig` is the result of
the original system call if there is one, otherwise `writev` and `errno` are what `writev` returns and sets. -/
def writeFile (orig : Option Int) (writev errno : Int) : Int :=
  match orig with
  | some r => r
  | none => if writev = -1 then errno else writev

end Verif.Sockets
