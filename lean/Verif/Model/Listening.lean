import Verif.Model.Ipacl
import Verif.Model.BackupNumber
import Verif.Model.Confs

/-!
# Where the server listens: the start of `run_server`, `src/server/main.c:946-990`

What the system does with an address is given. Simplifications: the copy of an address is always made;
`getaddrinfo`, `socket`, `bind` and `listen` are one operation, which may depend on what is watched already.
-/

namespace Verif.Listening
open Verif Verif.Ipacl

/-- What a listening socket is for. -/
inductive Kind where
  | main
  | status
  deriving DecidableEq, Repr

/-- A listening socket: what for; the address of the settings that it goes by (`asfd->listen`); where it listens,
unless it came from systemd, then its number there; who may connect. -/
structure Sock where
  kind : Kind
  addr : Str
  place : (Str × Str) ⊕ Nat
  acl : List Elem
  deriving DecidableEq

/-- The settings: `listen`, `listen_status`, `network_allow`, `network_allow_status`. -/
structure Conf where
  listen : List Str
  listenStatus : List Str
  allow : List Str
  allowStatus : List Str

/-- The system. -/
structure World where
  pton : Pton
  /-- whether host and port can be listened on, with these sockets there -/
  opens : List Sock → Str → Str → Bool
  /-- whether `setup_asfd` succeeds, so that the socket is watched -/
  watches : Str → Bool
  /-- `sd_listen_fds(0)`: an error, or how many sockets systemd has for us -/
  given : Option Nat
  /-- `sd_is_socket_inet`, for one of them and a port: not 0 for yes, and for an error -/
  isInet : Nat → Nat → Int

/-- `split_addr`, `src/server/main.c:97-108`. -/
def splitAddr (a : Str) : Option (Str × Str) :=
  if a.contains 58 then
    let port := (a.reverse.takeWhile (fun b => b ≠ 58)).reverse
    some (a.take (a.length - port.length - 1), port)
  else none

/-- `init_listen_socket`, `src/server/main.c:110-205`. A socket that is not watched is no error: `goto end`, 182-183. -/
def listenOn (w : World) (kind : Kind) (allow : List Str) (socks : List Sock) (a : Str) : Option (List Sock) :=
  match splitAddr a with
  | none => none
  | some (host, port) =>
    if w.opens socks host port then
      if w.watches a then
        match appendAll w.pton [] allow with
        | none => none
        | some acl => some (socks ++ [⟨kind, a, .inl (host, port), acl⟩])
      else some socks
    else none

/-- `init_listen_sockets`, `src/server/main.c:207-217`. -/
def listenAll (w : World) (kind : Kind) (allow : List Str) : List Sock → List Str → Option (List Sock)
  | socks, [] => some socks
  | socks, a :: as =>
    match listenOn w kind allow socks a with
    | none => none
    | some socks => listenAll w kind allow socks as

/-- `check_addr_for_desc`, `src/server/main.c:847-874`. -/
def addrFor (w : World) (fd : Nat) : List Str → Option Str
  | [] => none
  | a :: as =>
    match splitAddr a with
    | none => none
    | some (_, port) =>
      if w.isInet fd (BackupNumber.strtoul port) ≠ 0 then some a else addrFor w fd as

/-- What is made of a socket from systemd, `src/server/main.c:897-926`. -/
def adopt (c : Conf) (w : World) (fd : Nat) : Option Sock :=
  match addrFor w fd c.listen with
  | some a => if w.watches a then some ⟨.main, a, .inr fd, []⟩ else none
  | none =>
    match addrFor w fd c.listenStatus with
    | some a => if w.watches a then some ⟨.status, a, .inr fd, []⟩ else none
    | none => none

/-- The loop of `socket_activated_init_listen_sockets`, `src/server/main.c:894-933`. -/
def adoptAll (c : Conf) (w : World) : List Nat → Option (List Sock)
  | [] => some []
  | fd :: fds =>
    match adopt c w fd with
    | none => none
    | some s => (adoptAll c w fds).map (s :: ·)

/-- Without systemd, `src/server/main.c:983-990`. -/
def openAll (c : Conf) (w : World) : Option (List Sock) :=
  match listenAll w .main c.allow [] c.listen with
  | none => none
  | some socks => listenAll w .status c.allowStatus socks c.listenStatus

/-- `src/server/main.c:978-990`: what is listened on; `none`: the server does not start. The numbers begin with
`SD_LISTEN_FDS_START`. -/
def start (c : Conf) (w : World) : Option (List Sock) :=
  match w.given with
  | none => none
  | some 0 => openAll c w
  | some (n + 1) => adoptAll c w ((List.range (n + 1)).map (· + 3))

/-- The first check of `process_incoming_client`, `src/server/main.c:557-564`: whether a connection is not closed
at once. -/
def admits (s : Sock) (from_ : Addr) : Bool := !(!s.acl.isEmpty && !test s.acl from_)

end Verif.Listening
