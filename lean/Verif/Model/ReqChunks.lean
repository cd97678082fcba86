/-
Model of how a taker's list of chunks gets to the giver when it does not fit into one message: the request of
/repo/jsync/service.go (Start) and dirtaker.go, packAndSendChunksLimitedSize and getMoreChunks of giver.go.

* Of a Chunk: where it begins and ends, its hash (a number) and its Msgsize. Encoding and decoding are left out (Greenpack, C66).
* A circuit hands over what is sent in order (Frag, Pump); what else may come out of it is an `Ev`.
* Progress reports and byte counts are left out.
-/
namespace Verif.ReqChunks

/-- jsync/rsync.go:35-47 Chunk; `size` is its Msgsize (rsync_gen.go:831-834). -/
structure Chunk where
  beg : Nat
  endx : Nat
  cry : Nat
  size : Nat
deriving DecidableEq, Repr

/-- A fragment of packAndSendChunksLimitedSize (giver.go:697-741): FragOp is opLast or opMore, FragPart, and the chunks. -/
structure Msg where
  last : Bool
  part : Nat
  chunks : List Chunk
deriving DecidableEq, Repr

/-- The part of Chunks.Msgsize that comes from the entries (rsync_gen.go:1469-1475). -/
def total (cs : List Chunk) : Nat := (cs.map Chunk.size).sum

/-- giver.go:712-723, the inner loop: chunks go into the pack as long as it stays below `max`. The pack, and what is left. -/
def fill (max : Nat) : Nat → List Chunk → List Chunk × List Chunk
  | _, [] => ([], [])
  | have_, c :: cs =>
    if have_ + c.size < max then (c :: (fill max (have_ + c.size) cs).1, (fill max (have_ + c.size) cs).2) else ([], c :: cs)

/-- giver.go:692-744, the outer loop: what has been sent after at most `rounds` of it. `last` is set when the inner loop reaches the end of
the list (716-719). -/
def sends (max : Nat) : (rounds part : Nat) → List Chunk → List Msg
  | 0, _, _ => []
  | _ + 1, _, [] => []
  | r + 1, i, c :: cs =>
    let p := fill max 0 (c :: cs)
    ⟨p.2.isEmpty, i, p.1⟩ :: sends max r (i + p.1.length) p.2

/-- giver.go:662-746 packAndSendChunksLimitedSize; `Chunks[n-1]` (685) panics for an empty list. -/
def limited (max rounds : Nat) (cs : List Chunk) : Option (List Msg) :=
  if cs.isEmpty then none else some (sends max rounds 0 cs)

/-- The first message of a pull (service.go:918-948): the chunks in it, MoreChunksComming; and the chunks that are left. -/
structure Request where
  first : List Chunk
  more : Bool
  extra : List Chunk
deriving DecidableEq, Repr

/-- service.go:915-948 (dirtaker.go:833-863 after its assertion, see C96): `base` is the Msgsize of the request without the entries of
the list. None: a panic. With fewer than `K` chunks `Chunks[:K]` (928) or, if there is capacity for that, `origChunks[K:]` (971) panics. -/
def split (K limit base : Nat) (cs : List Chunk) : Option Request :=
  if cs.length > K ∨ base + total cs > limit then
    if cs.length < K then none
    else if base + total (cs.take K) > limit then none
    else some ⟨cs.take K, true, cs.drop K⟩
  else some ⟨cs, false, []⟩

/-- service.go:915-989: the first message, then the rest in packs. The messages sent after at most `rounds` of the loop. -/
def pull (K limit max base rounds : Nat) (cs : List Chunk) : Option (Request × List Msg) :=
  match split K limit base cs with
  | none => none
  | some r => if r.more then (limited max rounds r.extra).map (fun ms => (r, ms)) else some (r, [])

/-- What getMoreChunks may see (giver.go:924-999): a message, one of another kind, or the end (an error on the circuit, `done`, `done0`, halt). -/
inductive Ev where
  | msg (m : Msg)
  | other
  | stop
deriving DecidableEq, Repr

/-- How getMoreChunks (giver.go:912-1002) ends: still waiting; back with a nil error, so that the caller goes on with the list; a panic. -/
inductive Outcome where
  | waiting (l : List Chunk)
  | goesOn (l : List Chunk)
  | panic
deriving DecidableEq, Repr

/-- giver.go:928-951, the last message: `x.Chunks[0]` and the check that it follows on what is there. -/
def takeLast (acc : List Chunk) (m : Msg) : Outcome :=
  match acc.getLast?, m.chunks with
  | none, l => .goesOn (acc ++ l)
  | some _, [] => .panic
  | some a, b :: l => if a.endx ≠ b.beg then .panic else .goesOn (acc ++ b :: l)

/-- giver.go:912-1002 getMoreChunks. -/
def collect (acc : List Chunk) : List Ev → Outcome
  | [] => .waiting acc
  | .stop :: _ => .goesOn acc
  | .other :: _ => .panic
  | .msg m :: l => if m.last then takeLast acc m else collect (acc ++ m.chunks) l

/-- giver.go:246-262: the giver at a request, up to the list of chunks it goes on with. -/
def giver (first : List Chunk) (more : Bool) (l : List Ev) : Outcome :=
  if more then collect first l else .goesOn first

end Verif.ReqChunks
