import Mathlib.Tactic.ByContra
import Mathlib.Tactic.Tauto
import Mathlib.Data.List.Basic

/-!
# Model: waiting for sockets (C67)

`select` (libsel4camkes/src/sys_select.c) for components whose sockets live in another component. A set of
descriptors is a function to `Bool`; `sock i` is the number of the socket of the descriptor `i`, `none` if the
descriptor is not a socket. The other component is a function from what it is asked to what it answers. Not
modelled: the limit `FD_SETSIZE`.
-/

namespace Verif.Select

/-- `fd_set`. -/
abbrev FdSet := Nat → Bool

/-- `FD_SET`. -/
def FdSet.add (s : FdSet) (i : Nat) : FdSet := fun x => if x = i then true else s x

/-- `FD_CLR`. -/
def FdSet.del (s : FdSet) (i : Nat) : FdSet := fun x => if x = i then false else s x

/-- The numbers `FIRST_USER_FD` to `maxfd - 1`: the loops in sys_select.c:27, 48 and 66. -/
def userFds (first maxfd : Nat) : List Nat := List.range' first (maxfd - first)

/-- The body of the loop of `fdset_to_sockset`, sys_select.c:28-35. -/
def toSockStep (sock : Nat → Option Nat) (fds : FdSet) (i : Nat) : FdSet :=
  match sock i with
  | some s => if fds i then (fds.del i).add s else fds
  | none => fds

/-- `fdset_to_sockset`, sys_select.c:18-37. -/
def toSock (sock : Nat → Option Nat) (first maxfd : Nat) (fds : FdSet) : FdSet := (userFds first maxfd).foldl (toSockStep sock) fds

/-- The body of the loop of `sockset_to_fdset`, sys_select.c:49-56. -/
def toFdStep (sock : Nat → Option Nat) (fds : FdSet) (i : Nat) : FdSet :=
  match sock i with
  | some s => if fds s then (fds.del s).add i else fds
  | none => fds

/-- `sockset_to_fdset`, sys_select.c:39-58. -/
def toFd (sock : Nat → Option Nat) (first maxfd : Nat) (fds : FdSet) : FdSet := (userFds first maxfd).foldl (toFdStep sock) fds

/-- `find_max_sockfd`, sys_select.c:60-77. -/
def findMax (sock : Nat → Option Nat) (first nfds : Nat) : Nat :=
  (userFds first nfds).foldl (fun max i => match sock i with | some s => if s > max then s else max | none => max) 0

/-- What is in the memory that is shared with the other component, sys_select.c:94-108. -/
structure Shared where
  read : FdSet
  write : FdSet
  except : FdSet
  timeout : Nat

/-- The arguments of `select` after the first; `none` is `NULL`. -/
structure Args where
  read : Option FdSet
  write : Option FdSet
  except : Option FdSet
  timeout : Option Nat

/-- What the other component is asked, sys_select.c:90-110: the number of sockets and the shared memory. -/
def request (sock : Nat → Option Nat) (first nfds : Nat) (a : Args) (old : Shared) : Nat × Shared :=
  (findMax sock first nfds + 1,
   { read := match a.read with | some s => toSock sock first nfds s | none => old.read
     write := match a.write with | some s => toSock sock first nfds s | none => old.write
     except := match a.except with | some s => toSock sock first nfds s | none => old.except
     timeout := match a.timeout with | some t => t | none => old.timeout })

/-- `camkes_sys__newselect`, sys_select.c:80-138: the result and the arguments afterwards. -/
def select (sock : Nat → Option Nat) (first : Nat) (server : Nat → Shared → Int × Shared) (old : Shared) (nfds : Nat) (a : Args) : Int × Args :=
  let q := request sock first nfds a old
  let r := server q.1 q.2
  (r.1,
   { read := a.read.map fun _ => toFd sock first nfds r.2.read
     write := a.write.map fun _ => toFd sock first nfds r.2.write
     except := a.except.map fun _ => toFd sock first nfds r.2.except
     timeout := a.timeout.map fun _ => r.2.timeout })

end Verif.Select
