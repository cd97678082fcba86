/-!
# The identifier of a host

Model of `createHostCID_onDisk` (`config.go:21-42`), called when a process starts.

Simplifications: the file is `none` or its content as a list of characters; all of
them are in ASCII, so that the size is the length. Errors of the file system
other than a missing file are left out.
-/

namespace Verif.HostCID

/-- White space, as `strings.TrimSpace` sees it in ASCII (`config.go:32`). -/
def isSpace (c : Char) : Bool :=
  c = ' ' || c = '\t' || c = '\n' || c = '\r' || c = '\x0b' || c = '\x0c'

/-- `strings.TrimSpace` (`config.go:32`). -/
def trim (l : List Char) : List Char :=
  ((l.dropWhile isSpace).reverse.dropWhile isSpace).reverse

/-- The text in front of the random part (`config.go:36`). -/
def pre : List Char := ['h', 'o', 's', 't', 'C', 'I', 'D', '-']

/-- What is written to the file (`config.go:35-36`). -/
def line (cid : List Char) : List Char := pre ++ cid ++ ['\n']

/-- A start comes to an end: a panic, or the identifier. -/
inductive Res where
  | panic
  | id (s : List Char)
deriving DecidableEq, Repr

/-- Where a process is in `createHostCID_onDisk`: before the test for the file
(`config.go:24`), before `os.Create` (37), before `WriteString` (39), at the
end. -/
inductive Pc where
  | check
  | create
  | write
  | done (r : Res)
deriving DecidableEq, Repr

/-- One step of a process whose random identifier is `cid` (`config.go:21-42`).
Size and content of an existing file are read in one step. `os.Create` empties a
file that is there; a process writes from the start of the file, in one
`WriteString`, so a longer content would keep its end. -/
def step (cid : List Char) (f : Option (List Char)) : Pc → Option (List Char) × Pc
  | .check =>
    match f with
    | some c => if c.length < 20 then (f, .done .panic) else (f, .done (.id (trim c)))
    | none => (f, .create)
  | .create => (some [], .write)
  | .write => (some (line cid ++ (f.getD []).drop (line cid).length), .done (.id (line cid)))
  | .done r => (f, .done r)

/-- A start that nothing interrupts: at most three steps. -/
def start (cid : List Char) (f : Option (List Char)) : Option (List Char) × Pc :=
  let a := step cid f .check
  let b := step cid a.1 a.2
  step cid b.1 b.2

/-- Several starts, one after the other; the results in order. -/
def starts : List (List Char) → Option (List Char) → Option (List Char) × List Pc
  | [], f => (f, [])
  | c :: cs, f =>
    let a := start c f
    let b := starts cs a.1
    (b.1, a.2 :: b.2)

/-- Two processes started on the same host at the same time: `true` steps the
first, `false` the second. -/
def both (c1 c2 : List Char) : List Bool → Option (List Char) × Pc × Pc → Option (List Char) × Pc × Pc
  | [], s => s
  | true :: bs, (f, p, q) => both c1 c2 bs ((step c1 f p).1, (step c1 f p).2, q)
  | false :: bs, (f, p, q) => both c1 c2 bs ((step c2 f q).1, p, (step c2 f q).2)

end Verif.HostCID
