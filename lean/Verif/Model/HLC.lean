/-
Model of the hybrid logical clock, /repo/tube/hlc.go.

An HLC is an int64; here an `Int` in the int64 range, with every addition
wrapped to 64 bits as in Go.
-/
namespace Verif.HLC

/-- int64 addition overflow: reduce to -2^63 .. 2^63-1. -/
def wrap64 (x : Int) : Int := (x + 2^63) % 2^64 - 2^63

/-- hlc.go:77-83 `r & getLC`: clear the low 16 bits (two's complement). -/
def lc (x : Int) : Int := x - x % 65536

/-- hlc.go:85-88 `r & getCount`: the low 16 bits. -/
def count (x : Int) : Int := x % 65536

/-- hlc.go:137-143 `PhysicalTime48`, given the reading `pt` of
`time.Now().UnixNano()`. -/
def physicalTime48 (pt : Int) : Int := lc (wrap64 (pt + 65535))

/-- hlc.go:149-177 `CreateSendOrLocalEvent` (and 182-212 `CreateAndNow`, the same
computation): the new clock value from the loaded value `j` and the physical
reading `pt`. -/
def createEvent (j pt : Int) : Int :=
  let ptj := physicalTime48 pt
  let jLC1 := lc j
  let jLC := if ptj > jLC1 then ptj else jLC1
  let jCount := if jLC = jLC1 then count j + 1 else 0
  wrap64 (jLC + jCount)

/-- hlc.go:220-256 `ReceiveMessageWithHLC(m)`. -/
def receive (j m pt : Int) : Int :=
  let jlcOrig := lc j
  let mLC := lc m
  let ptj := physicalTime48 pt
  let jLC0 := if ptj > jlcOrig then ptj else jlcOrig
  let jLC := if mLC > jLC0 then mLC else jLC0
  let jCount :=
    if jLC = jlcOrig ∧ jlcOrig = mLC then max (count j) (count m) + 1
    else if jLC = jlcOrig then count j + 1
    else if jLC = mLC then count m + 1
    else 0
  wrap64 (jLC + jCount)

/-- What a goroutine asks of the clock: a local/send event, or the receipt of a
message stamped m. -/
inductive Req where
  | event
  | recv (m : Int)
deriving DecidableEq, Repr

def compute (j : Int) (pt : Int) : Req → Int
  | .event => createEvent j pt
  | .recv m => receive j m pt

/-- One clock shared by goroutines. `loaded i` is the value goroutine i read at
the top of its retry loop (hlc.go:152, 185, 223). `results` are the timestamps
handed out, newest first, each with the physical reading it was made from. -/
structure Shared where
  clock : Int
  loaded : Nat → Int
  results : List (Int × Int)

/-- Atomic steps of the retry loop: load the clock, or compare-and-swap. The
physical clock is read between the two, with any result `pt`. -/
inductive Step where
  | load (i : Nat)
  | cas (i : Nat) (pt : Int) (r : Req)
deriving DecidableEq, Repr

/-- hlc.go:152/171, 185/206, 223/250: a failed compare-and-swap changes nothing and
the goroutine loops. -/
def step (s : Shared) : Step → Shared
  | .load i => { s with loaded := fun k => if k = i then s.clock else s.loaded k }
  | .cas i pt r =>
    if s.clock = s.loaded i then
      { s with
        clock := compute (s.loaded i) pt r
        results := (compute (s.loaded i) pt r, pt) :: s.results }
    else s

def run (s : Shared) (l : List Step) : Shared := l.foldl step s

/-- An event of a distributed execution, in some global order in which they
really happened: on which node, the physical reading there, and if it is the
receipt of a message, the index of the sending event. -/
structure Ev where
  node : Nat
  pt : Int
  from_ : Option Nat
deriving DecidableEq, Repr

/-- The timestamp of event `e`, given each node's clock and the timestamps of the
events so far. A receipt merges the sender's timestamp. (A receipt of a message
not yet sent cannot happen; the theorem assumes it away.) -/
def stampOne (clocks : Nat → Int) (ts : List Int) (e : Ev) : Int :=
  match e.from_ with
  | none => createEvent (clocks e.node) e.pt
  | some k =>
    match ts[k]? with
    | some m => receive (clocks e.node) m e.pt
    | none => clocks e.node

/-- Timestamps of a distributed execution in which each node has its own clock.
`ts` are the timestamps so far, in order. -/
def stamp (clocks : Nat → Int) (ts : List Int) : List Ev → List Int
  | [] => ts
  | e :: es =>
    stamp (fun n => if n = e.node then stampOne clocks ts e else clocks n)
      (ts ++ [stampOne clocks ts e]) es

end Verif.HLC
