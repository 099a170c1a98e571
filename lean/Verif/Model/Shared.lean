/-
  Which goroutine reads and writes which shared variable, and how the goroutines synchronise: pkg/download/manager.go, pkg/peer/peer.go,
  pkg/torrent/torrent.go, pkg/torrent/pieces_queue.go, pkg/stats/stats.go. Values are left out, and so is every variable that is never
  written after it is built and before any goroutine that reads it is started (Torrent's fields but the bit sets and files, Manager.torrent,
  Manager.logger, the tracker set, …). Branches are taken arbitrarily.
-/
namespace Gotit.Shared

/-- The goroutines. -/
inductive Gid where
  /-- `Download`, then `Stop` (download.go:81-83) -/
  | main
  /-- manager.go:182-191 -/
  | printer
  /-- `WritePiece` (manager.go:62) -/
  | writer
  /-- `runTracker` for the `t`-th URL (manager.go:75-77) -/
  | tracker (t : Nat)
  /-- `Run` of peer `p` (manager.go:175-178) -/
  | run (p : Nat)
  deriving DecidableEq

/-- The mutexes: `poolMu`, `requestedMu`, `downloadedMu`, and `failedMu` of each queue. -/
inductive Mtx where
  | pool
  | requested
  | downloaded
  | failed (q : Nat)
  deriving DecidableEq

/-- The shared variables. -/
inductive Loc where
  /-- `Manager.cancelCtx` -/
  | cancelCtx
  /-- the field `Manager.peerPool` -/
  | poolField
  /-- the map it refers to -/
  | poolMap
  /-- `Torrent.requested` and the bits -/
  | requested
  /-- `Torrent.downloaded` and the bits -/
  | downloaded
  /-- `Torrent.OsFiles` -/
  | files
  /-- `failedMessages` of queue `q` -/
  | failed (q : Nat)
  /-- `Peer.conn` -/
  | conn (p : Nat)
  /-- the other fields of `Peer` that change: `lastMsgSent`, `Bitset`, the two statuses, `blockIdx`, `pieceIdx` -/
  | own (p : Nat)
  /-- a `PeerMessage` -/
  | msg (k : Nat)
  deriving DecidableEq

/-- Where a goroutine is when it has done its current actions. -/
inductive Cont where
  /-- not started -/
  | off
  /-- returned -/
  | ended
  /-- `Stop`, in the loop over the pool -/
  | closing
  /-- `runTracker`, at the top of its loop -/
  | announce
  /-- `initPeers`, at the top of its loop, with queue `q` -/
  | peers (q : Nat)
  /-- `AddPeer` of `p`, after looking it up -/
  | adding (q p : Nat)
  /-- `startPeerDownload` of `p` -/
  | dialing (q p : Nat)
  /-- `Run` of `p`; `requestMsg` is message `k` -/
  | run (p q : Nat) (k : Option Nat)
  /-- `WritePiece`; the message received last is `k` -/
  | writing (k : Option Nat)
  | printing
  deriving DecidableEq

/-- The actions. -/
inductive Act where
  /-- first write, when the variable is built -/
  | init (x : Loc)
  | rd (x : Loc)
  | wr (x : Loc)
  /-- `m.peerPool[…] = p` -/
  | insert (p : Nat)
  /-- `append(pq.failedMessages, msg)` -/
  | push (q k : Nat)
  /-- taking the last of `pq.failedMessages` if there is one: to be done (`popAny`), done (`pop`) -/
  | popAny (q : Nat)
  | pop (q k : Nat)
  | lock (m : Mtx)
  | unlock (m : Mtx)
  | go (g : Gid) (c : Cont)
  /-- `p.writeCh <- message` -/
  | send (k : Nat)
  /-- `msg := <-piecesCh`: to be done, done -/
  | recvAny
  | recv (k : Nat)
  /-- an operation of sync/atomic on a counter of `Stats` -/
  | atomic (a : Nat)
  /-- `wg.Done()`, `wg.Wait()` returning -/
  | done
  | wait
  /-- `m.cancelCtx()`, `<-ctx.Done()` returning -/
  | cancel
  | observe
  deriving DecidableEq

abbrev Event := Gid × Act
abbrev Trace := List Event

/-- Download and Stop up to the loop over the pool (torrent.go:55-111 for the first two, manager.go:38-68, 194-200), for the trackers `ts`. -/
def mainActs (ts : List Nat) : List Act :=
  [.init .requested, .init .downloaded, .init .files, .init .poolField, .init .poolMap, .wr .cancelCtx, .go .printer .printing] ++
    ts.map (fun t => .go (.tracker t) .announce) ++
    [.go .writer (.writing none), .wait, .observe, .rd .poolField, .rd .cancelCtx, .cancel, .lock .pool, .rd .poolField, .rd .poolMap]

/-- `Continue n c acts c'`: a goroutine at `c` may do `acts` and then be at `c'`. `n` is a number not used before, for a new peer,
message or queue. -/
inductive Continue (n : Nat) : Cont → List Act → Cont → Prop
  /-- a failed announce (manager.go:119-146): the counters are read -/
  | failed : Continue n .announce [.atomic 0, .atomic 3, .atomic 1] .announce
  /-- a successful announce; `NewPiecesQueue` (manager.go:110, pieces_queue.go:14-19) -/
  | announced : Continue n .announce [.atomic 0, .atomic 3, .atomic 1, .init (.failed n)] (.peers n)
  | cancelled : Continue n .announce [] .ended
  | noMore {q} : Continue n (.peers q) [] .announce
  /-- `NewPeer` (peer.go:96-120) and the beginning of `AddPeer` (manager.go:216-220) -/
  | newPeer {q} : Continue n (.peers q) [.wr (.own n), .wr (.conn n), .lock .pool, .rd .poolField, .rd .poolMap] (.adding q n)
  /-- known address (manager.go:221) -/
  | known {q p} : Continue n (.adding q p) [.unlock .pool] (.peers q)
  /-- manager.go:224-226 -/
  | added {q p} : Continue n (.adding q p) [.rd .poolField, .insert p, .atomic 2, .unlock .pool] (.dialing q p)
  /-- `connect` fails (peer.go:122-127) -/
  | noDial {q p} : Continue n (.dialing q p) [.wr (.conn p)] (.dialing q p)
  /-- `connect` succeeds, the handshake fails (peer.go:129-152) -/
  | noShake {q p} : Continue n (.dialing q p) [.wr (.conn p), .wr (.own p), .rd (.conn p)] (.dialing q p)
  /-- five failures (manager.go:166-172) -/
  | giveUp {q p} : Continue n (.dialing q p) [.atomic 2] (.peers q)
  /-- success (manager.go:174-178) -/
  | start {q p} : Continue n (.dialing q p) [.wr (.conn p), .wr (.own p), .rd (.conn p), .go (.run p) (.run p q none)] (.peers q)
  /-- `Done` (torrent.go:136-140) -/
  | isDone {p q k} : Continue n (.run p q k) [.lock .downloaded, .rd .downloaded, .unlock .downloaded] (.run p q k)
  /-- `checkKeepAlive`, `unchoke`, reading a message and `handlePeerMessage` of anything but a piece (peer.go:165-200, 309-365) -/
  | talk {p q k} : Continue n (.run p q k) [.rd (.own p), .rd (.conn p), .wr (.own p)] (.run p q k)
  /-- `FailedPieceMessage` (pieces_queue.go:27-37) -/
  | again {p q k} : Continue n (.run p q k) [.rd (.own p), .lock (.failed q), .popAny q, .unlock (.failed q)] (.run p q k)
  /-- `Next` (torrent.go:120-134) and peer.go:298-299 -/
  | next {p q k} : Continue n (.run p q k)
      [.rd (.own p), .lock .requested, .rd .requested, .rd (.own p), .wr .requested, .unlock .requested, .wr (.own p)] (.run p q k)
  /-- `createPieceMessage` (peer.go:78-90) -/
  | create {p q k} : Continue n (.run p q k) [.rd (.own p), .init (.msg n), .wr (.own p)] (.run p q (some n))
  /-- sending the request (peer.go:250) -/
  | request {p q k} : Continue n (.run p q (some k)) [.rd (.conn p), .rd (.msg k)] (.run p q (some k))
  /-- `RequestFailed` (pieces_queue.go:21-25) -/
  | retry {p q k} : Continue n (.run p q (some k)) [.lock (.failed q), .push q k, .unlock (.failed q)] (.run p q (some k))
  /-- a piece is received and accepted (peer.go:393-402) -/
  | piece {p q k} : Continue n (.run p q k)
      [.rd (.conn p), .init (.msg n), .rd (.msg n), .rd (.own p), .send n, .rd (.msg n), .wr (.own p)] (.run p q k)
  | stop {p q k} : Continue n (.run p q k) [.done] .ended
  /-- `WritePiece` (torrent.go:176-195) -/
  | receive {k} : Continue n (.writing k) [.recvAny] (.writing k)
  | write {k} : Continue n (.writing (some k)) [.rd (.msg k), .atomic 0, .atomic 1, .wr .files] (.writing none)
  | writeLast {k} : Continue n (.writing (some k))
      [.rd (.msg k), .atomic 0, .atomic 1, .wr .files, .lock .downloaded, .wr .downloaded, .unlock .downloaded] (.writing none)
  | closed {k} : Continue n (.writing k) [] .ended
  /-- progress_printer.go:25-37 -/
  | print : Continue n .printing [.atomic 0, .atomic 1, .atomic 2] .printing
  | printed : Continue n .printing [] .ended

/-- The program. -/
structure State where
  trace : Trace
  todo : Gid → List Act
  cont : Gid → Cont
  /-- the mutex a goroutine holds (it never holds two) -/
  held : Gid → Option Mtx
  queue : Nat → List Nat
  chan : List Nat
  /-- the keys of the pool -/
  pool : List Nat
  /-- numbers from here on are unused -/
  next : Nat

/-- Changing a function at one place. -/
def put {α β : Type} [DecidableEq α] (f : α → β) (a : α) (b : β) : α → β := fun x => if x = a then b else f x

/-- The message a goroutine has got hold of. -/
def Cont.hold (k : Nat) : Cont → Cont
  | .run p q _ => .run p q (some k)
  | .writing _ => .writing (some k)
  | c => c

def State.start (ts : List Nat) : State where
  trace := []
  todo := fun g => if g = .main then mainActs ts else []
  cont := fun g => if g = .main then .closing else .off
  held := fun _ => none
  queue := fun _ => []
  chan := []
  pool := []
  next := 0

/-- `Can σ a e`: the action `a` can be done now, as event `e`. -/
inductive Can (σ : State) : Act → Act → Prop
  | init {x} : Can σ (.init x) (.init x)
  | rd {x} : Can σ (.rd x) (.rd x)
  | wr {x} : Can σ (.wr x) (.wr x)
  | insert {p} : Can σ (.insert p) (.insert p)
  | push {q k} : Can σ (.push q k) (.push q k)
  /-- the last message of the queue is taken -/
  | pop {q k} : (σ.queue q).getLast? = some k → Can σ (.popAny q) (.pop q k)
  | popNone {q} : σ.queue q = [] → Can σ (.popAny q) (.rd (.failed q))
  /-- the mutex must be free -/
  | lock {m} : (∀ h, σ.held h ≠ some m) → Can σ (.lock m) (.lock m)
  | unlock {m} : Can σ (.unlock m) (.unlock m)
  | go {h c} : Can σ (.go h c) (.go h c)
  | send {k} : Can σ (.send k) (.send k)
  | recv {k} : σ.chan.head? = some k → Can σ .recvAny (.recv k)
  | atomic {a} : Can σ (.atomic a) (.atomic a)
  | done : Can σ .done .done
  | wait : Can σ .wait .wait
  | cancel : Can σ .cancel .cancel
  | observe : Can σ .observe .observe

def todoAfter (todo : Gid → List Act) (g : Gid) (rest : List Act) : Act → Gid → List Act
  | .go h _ => put (put todo g rest) h []
  | _ => put todo g rest

def contAfter (cont : Gid → Cont) (g : Gid) : Act → Gid → Cont
  | .go h c => put cont h c
  | .pop _ k => put cont g ((cont g).hold k)
  | .recv k => put cont g ((cont g).hold k)
  | _ => cont

def heldAfter (held : Gid → Option Mtx) (g : Gid) : Act → Gid → Option Mtx
  | .lock m => put held g (some m)
  | .unlock _ => put held g none
  | _ => held

def queueAfter (queue : Nat → List Nat) : Act → Nat → List Nat
  | .push q k => put queue q (queue q ++ [k])
  | .pop q _ => put queue q (queue q).dropLast
  | _ => queue

def chanAfter (chan : List Nat) : Act → List Nat
  | .send k => chan ++ [k]
  | .recv _ => chan.tail
  | _ => chan

def poolAfter (pool : List Nat) : Act → List Nat
  | .insert p => p :: pool
  | _ => pool

/-- Goroutine `g` has done `e`. -/
def State.after (σ : State) (g : Gid) (e : Act) (rest : List Act) : State where
  trace := σ.trace ++ [(g, e)]
  todo := todoAfter σ.todo g rest e
  cont := contAfter σ.cont g e
  held := heldAfter σ.held g e
  queue := queueAfter σ.queue e
  chan := chanAfter σ.chan e
  pool := poolAfter σ.pool e
  next := σ.next

/-- One step of one goroutine. -/
inductive Step : State → State → Prop
  | act {σ g a e rest} : σ.todo g = a :: rest → Can σ a e → Step σ (σ.after g e rest)
  | next {σ g acts c'} : σ.todo g = [] → Continue σ.next (σ.cont g) acts c' →
      Step σ { σ with todo := put σ.todo g acts, cont := put σ.cont g c', next := σ.next + 1 }
  /-- the loop of `Stop` (manager.go:203-209) -/
  | close {σ} : σ.todo .main = [] → σ.cont .main = .closing →
      Step σ { σ with todo := put σ.todo .main (σ.pool.map (fun p => .rd (.conn p)) ++ [.wr .poolField, .unlock .pool]),
                      cont := put σ.cont .main .ended }

inductive Reachable (ts : List Nat) : State → Prop
  | start : Reachable ts (.start ts)
  | step {σ σ'} : Reachable ts σ → Step σ σ' → Reachable ts σ'

end Gotit.Shared
