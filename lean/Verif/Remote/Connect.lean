/-!
# Connecting to a server (`src/remote.rs`) and accepting connections (`executors/remote_executor.rs`)

The grammar of a URL after its scheme, the resolution of names, the sockets and the derivation of a key from
a password are parameters (`World`).  The scheme of a URL is read as the `url` crate does
(`Parser::parse_scheme`), without the removal of the surrounding blanks.
-/

namespace TM.Remote

/-- What follows the scheme in a parsed URL. -/
structure UrlRest where
  host : List Char
  port : Option Nat
  path : List Char
  password : Option (List Char)
deriving DecidableEq, Repr

/-- The result of a connection attempt: a channel, an `io::Error`, another error (encryption, protocol). -/
inductive ConnRes where
  | ok | io | other
deriving DecidableEq, Repr

/-- A connection attempt: over TCP with an optional key, or over a unix socket. -/
inductive Attempt where
  | tcp (addr : Nat) (key : Option Nat)
  | unix (path : List Char)
deriving DecidableEq, Repr

/-- The environment: the rest of the URL grammar, name resolution, sockets, key derivation. -/
structure World where
  parseRest : List Char → List Char → Option UrlRest
  resolve : List Char → Nat → Option (List Nat)
  connect : Nat → Option Nat → ConnRes
  connectUnix : List Char → Bool
  key : List Char → Nat

/-- Characters allowed in a scheme after the first. -/
def isSchemeChar (c : Char) : Bool :=
  c.isAlphanum || c = '+' || c = '-' || c = '.'

/-- `url` crate, `parse_scheme`, the loop: the scheme in lower case and what follows the colon. -/
def schemeGo (acc : List Char) : List Char → Option (List Char × List Char)
  | [] => none
  | c :: cs =>
    if c = ':' then some (acc, cs)
    else if isSchemeChar c then schemeGo (acc ++ [c.toLower]) cs
    else none

/-- `url` crate, `parse_scheme`. -/
def splitScheme : List Char → Option (List Char × List Char)
  | [] => none
  | c :: cs => if c.isAlpha then schemeGo [] (c :: cs) else none

/-- The answers of `Url::parse` that the code tells apart. -/
inductive Parsed where
  | ok (scheme : List Char) (u : UrlRest)
  | relative
  | err

/-- `Url::parse`: without a scheme there is no base to resolve against. -/
def parseUrl (w : World) (s : List Char) : Parsed :=
  match splitScheme s with
  | none => .relative
  | some (sch, rest) =>
    match w.parseRest sch rest with
    | some u => .ok sch u
    | none => .err

/-- Why `connect_to_remote_server` failed. -/
inductive Failure where
  | url | resolve | path | scheme | conn (at_ : Attempt) | unknown
deriving DecidableEq, Repr

inductive Outcome where
  | connected (at_ : Attempt)
  | failed (why : Failure)
deriving DecidableEq, Repr

/-- src/remote.rs:52-77, the loop over the addresses, and :86-89: the attempts made, in order, and the
outcome.  `last` is the error remembered in `err`. -/
def tryAll (w : World) (key : Option Nat) (last : Option Attempt) : List Nat → List Attempt × Outcome
  | [] => ([], .failed (match last with | some a => .conn a | none => .unknown))
  | a :: as =>
    match w.connect a key with
    | .ok => ([.tcp a key], .connected (.tcp a key))
    | .io => let r := tryAll w key (some (.tcp a key)) as
             (.tcp a key :: r.1, r.2)
    | .other => ([.tcp a key], .failed (.conn (.tcp a key)))

/-- src/remote.rs:28-84, from the parsed URL on. -/
def connectUrl (w : World) (defaultPort : Nat) (sch : List Char) (u : UrlRest) :
    List Attempt × Outcome :=
  if sch = "tcp".toList then
    match w.resolve u.host (u.port.getD defaultPort) with
    | none => ([], .failed .resolve)
    | some addrs =>
      if addrs.isEmpty then ([], .failed .resolve)
      else if ¬ u.path.isEmpty then ([], .failed .path)
      else tryAll w (u.password.map w.key) none addrs
  else if sch = "unix".toList then
    if w.connectUnix u.path then ([.unix u.path], .connected (.unix u.path))
    else ([.unix u.path], .failed (.conn (.unix u.path)))
  else ([], .failed .scheme)

/-- src/remote.rs:13-90 `connect_to_remote_server`. -/
def connectTo (w : World) (s : List Char) (defaultPort : Nat) : List Attempt × Outcome :=
  match parseUrl w s with
  | .ok sch u => connectUrl w defaultPort sch u
  | .relative =>
    match parseUrl w ("tcp://".toList ++ s) with
    | .ok sch u => connectUrl w defaultPort sch u
    | _ => ([], .failed .url)
  | .err => ([], .failed .url)

/-! ## The listeners -/

/-- What a peer does first on its connection: nothing (it keeps it open), something that is not a welcome
(or it closes the connection), or a welcome with its name and version. -/
inductive First where
  | silent
  | broken
  | welcome (name version : List Char)
deriving DecidableEq, Repr

/-- What the listener does: answers to the peer of the `i`-th connection, and connections handed to the
executor, under the name of the welcome. -/
inductive Ev where
  | accept (i : Nat)
  | reject (i : Nat) (theirs : List Char)
  | deliver (i : Nat) (name : List Char)
deriving DecidableEq, Repr

/-- How a listener ends up: waiting for a new connection, waiting for the first message of a
connection, gone because the executor is. -/
inductive LEnd where
  | waiting
  | stuck (i : Nat)
  | gone (i : Nat)
deriving DecidableEq, Repr

/-- task-maker-exec/src/executors/remote_executor.rs:212-236 `validate_welcome`: the message sent and whether the
connection goes on. -/
def validateWelcome (ours theirs : List Char) (i : Nat) : Ev × Bool :=
  if theirs ≠ ours then (.reject i theirs, false) else (.accept i, true)

/-- task-maker-exec/src/executors/remote_executor.rs:121-149 (and :182-208) the loop of `client_listener` and
`worker_listener` on the connections in the order they are accepted; `alive i` says whether the executor is
still there when the `i`-th connection is handed to it. -/
def listen (ours : List Char) (alive : Nat → Bool) (i : Nat) : List First → List Ev × LEnd
  | [] => ([], .waiting)
  | .silent :: _ => ([], .stuck i)
  | .broken :: cs => listen ours alive (i + 1) cs
  | .welcome name version :: cs =>
    let v := validateWelcome ours version i
    if v.2 then
      if alive i then
        let r := listen ours alive (i + 1) cs
        (v.1 :: .deliver i name :: r.1, r.2)
      else ([v.1], .gone i)
    else
      let r := listen ours alive (i + 1) cs
      (v.1 :: r.1, r.2)

/-- task-maker-exec/src/executors/remote_executor.rs:96-108 (and :157-169) how an address is bound: a unix
socket, never encrypted, or TCP, encrypted when there is a password. -/
inductive Bound where
  | unix (path : List Char)
  | tcp (addr : List Char) (key : Option Nat)
deriving DecidableEq, Repr

def bindTo (w : World) (addr : List Char) (password : Option (List Char)) : Bound :=
  if "unix://".toList.isPrefixOf addr then .unix (addr.drop 7)
  else match password with
    | some p => .tcp addr (some (w.key p))
    | none => .tcp addr none

/-! ## The peers -/

/-- What a peer gets as the answer to its welcome. -/
inductive Answer where
  | accepted
  | rejected
  | nothing
deriving DecidableEq, Repr

/-- src/context.rs:156-171, src/tools/worker.rs:47-60: the peer goes on only after `Accepted`. -/
def peerGoesOn : Answer → Bool
  | .accepted => true
  | .rejected => false
  | .nothing => false

/-- src/tools/worker.rs:38-53: the welcome of a worker carries the name of the machine (or `--name`); -/
def workerWelcome (machine : List Char) (nameOpt : Option (List Char)) (_id : Option Nat)
    (version : List Char) : First :=
  .welcome (nameOpt.getD machine) version

/-- src/tools/worker.rs:62-66: the number of the worker is added only to the name it uses locally. -/
def workerLocalName (machine : List Char) (nameOpt : Option (List Char)) (id : Option Nat) : List Char :=
  match id with
  | some n => nameOpt.getD machine ++ ' ' :: (toString n).toList
  | none => nameOpt.getD machine

end TM.Remote
