/-!
# The file transfer protocol

Models `task-maker-exec/src/proto.rs` (the sending and the receiving side of a file transfer) and
`task-maker-store/src/read_file_iterator.rs`.

A channel carries *frames*: a frame is either a serialized message or a block of raw bytes.  What
`ductile` does below that (sockets, lengths, encryption) is trusted: a frame sent is received whole,
in order, and `recv_raw` of a message (or `recv` of raw data) is an error.
-/

namespace TM.Proto

/-- Raw data. -/
abbrev Bytes := List Nat

/-- What travels on a `ductile` channel of messages of type `M`: `send` or `send_raw`. -/
inductive Frame (M : Type) where
  | msg (m : M)
  | raw (b : Bytes)
  deriving DecidableEq, Repr

/-- `READ_FILE_BUFFER_SIZE`, `task-maker-store/src/read_file_iterator.rs:7`. -/
def readBufferSize : Nat := 8 * 1024

/-- How many bytes a `read` of a file that is not at its end returns: the operating system chooses
any number between 1 and the size of the buffer. -/
def readSize (choice : Nat) : Nat := max 1 (min choice readBufferSize)

/-- The chunks produced by iterating over a `ReadFileIterator`,
`task-maker-store/src/read_file_iterator.rs:50-60` (`next`).  The `answers` are the choices of the
operating system: `some n` is a read that may return up to `n` bytes, `none` is a read that fails
(which the code treats as the end of the file).  Once the list is exhausted all the reads fill the
buffer. -/
def readChunks (answers : List (Option Nat)) (content : Bytes) : List Bytes :=
  match answers.head? with
  | some none => []
  | some (some n) =>
    if _h : content = [] then []
    else content.take (readSize n) :: readChunks answers.tail (content.drop (readSize n))
  | none =>
    if _h : content = [] then []
    else content.take readBufferSize :: readChunks [] (content.drop readBufferSize)
  termination_by content.length
  decreasing_by
    · have := List.length_pos_iff.2 _h
      simp only [List.length_drop, readSize]
      omega
    · have := List.length_pos_iff.2 _h
      simp only [List.length_drop, readBufferSize]
      omega

/-- `ChannelFileSender::send`, `task-maker-exec/src/proto.rs:171-188`: the chunks of the file, then
an empty one. -/
def sendFile {M : Type} (answers : List (Option Nat)) (content : Bytes) : List (Frame M) :=
  (readChunks answers content).map .raw ++ [.raw []]

/-- `ChannelFileSender::send_data`, `task-maker-exec/src/proto.rs:191-207`: the whole content, then
an empty chunk unless the content was already empty. -/
def sendData {M : Type} (content : Bytes) : List (Frame M) :=
  .raw content :: (if content ≠ [] then [.raw []] else [])

/-- Iterating to the end over a `ChannelFileIterator`, `task-maker-exec/src/proto.rs:145-162`
(`next`): the chunks received and what is left in the channel.  `none` is a panic
(`expect("deserialize error")`) or an iterator still waiting at the end of the given frames. -/
def recvFile {M : Type} : List (Frame M) → Option (List Bytes × List (Frame M))
  | [] => none
  | .msg _ :: _ => none
  | .raw b :: fs =>
    if b = [] then some ([], fs)
    else (recvFile fs).map (fun r => (b :: r.1, r.2))

/-- What one end of a channel sends: a message, or a message that announces a transfer followed by
the transfer of a file of the disk (`sendFile`) or of a content in memory (`sendData`), as in
`task-maker-exec/src/client.rs:306-325`, `executor.rs:295-301`, `executor.rs:417-422`,
`worker_manager.rs` (`AskFile`) and `worker.rs:495-499`. -/
inductive Action (M : Type) where
  | message (m : M)
  | file (m : M) (answers : List (Option Nat)) (content : Bytes)
  | data (m : M) (content : Bytes)

/-- The frames of an action. -/
def Action.frames {M : Type} : Action M → List (Frame M)
  | .message m => [.msg m]
  | .file m answers content => .msg m :: sendFile answers content
  | .data m content => .msg m :: sendData content

/-- What the other end makes of the frames: a message, or a message with a file. -/
inductive Event (M : Type) where
  | message (m : M)
  | transfer (m : M) (content : Bytes)
  deriving DecidableEq, Repr

/-- The outcome of a receiving loop on a finite list of frames. -/
inductive Outcome (M : Type) where
  /-- all the frames have been handled, the loop waits for the next message -/
  | idle (events : List (Event M))
  /-- all the frames have been handled, the loop is in the middle of a transfer -/
  | midway (events : List (Event M)) (m : M) (received : Bytes)
  /-- a frame of the wrong kind: `expect("deserialize error")` or a failed `recv` -/
  | broken (events : List (Event M))
  deriving DecidableEq, Repr

/-- The state of a receiving loop: the transfer in progress, if any. -/
structure Rx (M : Type) where
  events : List (Event M) := []
  current : Option (M × Bytes) := none

/-- One step of a receiving loop (`task-maker-exec/src/client.rs:100-126`, `executor.rs:340-411`,
`worker.rs:185-231`, `worker_manager.rs` `worker_thread`): a message is handled, and when it
announces a transfer (`announces`) the following raw frames up to an empty one are the file.
`none` when the frame is of the wrong kind. -/
def Rx.step {M : Type} (announces : M → Bool) (s : Rx M) : Frame M → Option (Rx M)
  | .msg m => match s.current with
    | some _ => none
    | none =>
      if announces m then some { s with current := some (m, []) }
      else some { s with events := s.events ++ [.message m] }
  | .raw b => match s.current with
    | none => none
    | some (m, got) =>
      if b = [] then some { events := s.events ++ [.transfer m got], current := none }
      else some { s with current := some (m, got ++ b) }

/-- The receiving loop on a list of frames. -/
def Rx.run {M : Type} (announces : M → Bool) (s : Rx M) : List (Frame M) → Outcome M
  | [] => match s.current with
    | none => .idle s.events
    | some (m, got) => .midway s.events m got
  | f :: fs => match s.step announces f with
    | none => .broken s.events
    | some s' => s'.run announces fs

/-- The receiving loop from its start. -/
def receive {M : Type} (announces : M → Bool) (fs : List (Frame M)) : Outcome M :=
  Rx.run announces {} fs

end TM.Proto
