/-
Model of the replicated key/value store: /repo/tube/actions.go (kvstoreWrite, range and prefix
scans, reads, deletes, table operations), /repo/tube/tube.go doCAS, doReadKey, validLease and the
operation switch of commitWhatWeCan (10360-10490).

* A table is an adaptive radix tree (C36, C37); here it is its contents, a list of keys with
  leaves, kept sorted by `put`.
* Times are nanoseconds, 0 is Go's zero time (`IsZero`). `now` stands for `time.Now()`.
* Leaf pointers are not shared between tables, so leaves are values.
* Error texts are reduced to an error kind. Membership, session and user-defined operations do
  not touch the store and are left out.
-/
namespace Verif.KV

abbrev Key := List UInt8

/-- bytes.Compare (a, b) < 0. -/
def blt : Key → Key → Bool
  | [], [] => false
  | [], _ :: _ => true
  | _ :: _, [] => false
  | a :: as, b :: bs => if a = b then blt as bs else decide (a < b)

def ble (a b : Key) : Bool := a = b || blt a b

def lookup {β : Type} : List (Key × β) → Key → Option β
  | [], _ => none
  | (k', v) :: m, k => if k = k' then some v else lookup m k

/-- Insert or replace, keeping the order. -/
def put {β : Type} (k : Key) (v : β) : List (Key × β) → List (Key × β)
  | [] => [(k, v)]
  | (k', v') :: m =>
    if k = k' then (k, v) :: m
    else if blt k k' then (k, v) :: (k', v') :: m
    else (k', v') :: put k v m

def erase {β : Type} (k : Key) (m : List (Key × β)) : List (Key × β) := m.filter fun x => x.1 ≠ k

/-- art/leaf.go `Leaf`; `tm = 0` as above, `leasor = []` is "". -/
structure Leaf where
  value : Key := []
  vtype : Key := []
  leasor : Key := []
  leasorPeer : Key := []
  endTm : Int := 0
  epochT0 : Int := 0
  writeIdx : Nat := 0
  epoch : Nat := 0
  version : Nat := 0
  autoDel : Bool := false
  renewal : Int := 0
deriving DecidableEq, Repr

abbrev Table := List (Key × Leaf)

/-- RaftState.KVstore: `none` is nil. -/
abbrev Store := Option (List (Key × Table))

inductive Op where
  | noop | write | cas | read | deleteKey | makeTable | deleteTable | renameTable
  | showKeys | readKeyRange | readPrefixRange
deriving DecidableEq, Repr

inductive Err where
  | keyNotFound | staleIndex | shorterLease | leased | casVersion | casEpoch | casValue
  | noTableName | noNewName | newNameExists | tableNotFound
deriving DecidableEq, Repr

/-- tube.go:5290-5450 `Ticket`, the fields read or written here. The first group is the request,
`tm` and `idx` are set by prepOne (6348-6366), the second group is the answer, for which some
request fields are overwritten too. -/
structure Ticket where
  op : Op := .noop
  table : Key := []
  key : Key := []
  val : Key := []
  vtype : Key := []
  fromID : Key := []
  leasor : Key := []
  reqDur : Int := 0
  endTm : Int := 0
  autoDel : Bool := false
  tm : Int := 0
  idx : Nat := 0
  oldVersion : Int := 0
  oldEpoch : Int := 0
  oldVal : Key := []
  newTable : Key := []
  keyEnd : Key := []
  descend : Bool := false
  err : Option Err := none
  swapped : Bool := false
  epoch : Nat := 0
  epochT0 : Int := 0
  writeIdx : Nat := 0
  leasorPeer : Key := []
  versionRead : Nat := 0
  curVal : Key := []
  casCur : Key := []
  prevVal : Key := []
  prevVtype : Key := []
  scan : List (Key × Leaf) := []
deriving DecidableEq, Repr

/-- The table "dead", where expired auto-delete leaves go. -/
def dead : Key := [100, 101, 97, 100]

/-- tube.go:6348-6366 `prepOne`: what the leader stamps on a ticket. -/
def prepOne (t : Ticket) (now : Int) (idx : Nat) : Ticket :=
  { t with tm := now, idx := idx, endTm := if 0 < t.reqDur then now + t.reqDur else t.endTm }

/-- actions.go:737-761 `writeFailedSetCurrentVal`. -/
def failed (drift : Int) (t : Ticket) (l : Leaf) (e : Err) : Ticket :=
  { t with
    err := some e
    curVal := l.value
    vtype := l.vtype
    leasor := l.leasor
    leasorPeer := l.leasorPeer
    epochT0 := l.epochT0
    endTm := l.endTm + drift
    epoch := l.epoch
    writeIdx := l.writeIdx
    versionRead := l.version
    autoDel := l.autoDel }

/-- actions.go:578-600: a key that was not there. -/
def freshLeaf (t : Ticket) : Leaf :=
  { value := t.val, vtype := t.vtype, leasor := t.leasor, leasorPeer := t.fromID, epochT0 := t.tm,
    endTm := t.endTm, writeIdx := t.idx, epoch := 1, version := 1, autoDel := t.autoDel }

/-- actions.go:615-632: no lease on the key. -/
def freeLeaf (l : Leaf) (t : Ticket) : Leaf :=
  { l with value := t.val, vtype := t.vtype, leasor := t.leasor, leasorPeer := t.fromID,
           epochT0 := t.tm, endTm := t.endTm, writeIdx := t.idx, epoch := l.epoch + 1,
           version := l.version + 1, autoDel := t.autoDel }

/-- actions.go:667-682: the holder extends its lease. -/
def extendLeaf (l : Leaf) (t : Ticket) : Leaf :=
  { l with value := t.val, vtype := t.vtype, leasorPeer := t.fromID, endTm := t.endTm,
           writeIdx := t.idx, version := l.version + 1, autoDel := t.autoDel }

/-- actions.go:693-720: the lease ran out more than the drift bound ago. -/
def takeLeaf (drift : Int) (l : Leaf) (t : Ticket) : Leaf :=
  { l with value := t.val, vtype := t.vtype, leasor := t.leasor, leasorPeer := t.fromID,
           epochT0 := t.tm, endTm := t.endTm, writeIdx := t.idx, epoch := l.epoch + 1,
           version := l.version + 1, autoDel := t.autoDel, renewal := t.tm - (l.endTm + drift) }

/-- actions.go:602-735: the key is there with leaf `l`. A new leaf, or a reason to refuse. -/
def writeLeaf (drift : Int) (l : Leaf) (t : Ticket) : Leaf ⊕ Err :=
  if t.idx ≤ l.writeIdx then .inr .staleIndex
  else if l.leasor = [] ∨ l.endTm = 0 then .inl (freeLeaf l t)
  else if t.reqDur ≠ 0 ∧ t.endTm ≤ l.endTm then .inr .shorterLease
  else if t.reqDur ≠ 0 ∧ l.leasor = t.leasor ∧ l.leasorPeer = t.fromID then .inl (extendLeaf l t)
  else if l.endTm + drift < t.tm then .inl (takeLeaf drift l t)
  else .inr .leased

def setKey (m : List (Key × Table)) (table key : Key) (l : Leaf) : List (Key × Table) :=
  put table (put key l ((lookup m table).getD [])) m

/-- The leaf of a key, if any. -/
def leafOf (kv : Store) (table key : Key) : Option Leaf :=
  kv.bind fun m => (lookup m table).bind fun tab => lookup tab key

/-- actions.go:522-735 `kvstoreWrite`, not a dry run. `none` is the panic at 533. -/
def kvstoreWrite (drift : Int) (kv : Store) (t : Ticket) : Option (Store × Ticket) :=
  if t.tm = 0 then none
  else
    match leafOf kv t.table t.key with
    | none =>
      some (some (setKey (kv.getD []) t.table t.key (freshLeaf t)),
        { t with epoch := 1, writeIdx := t.idx, epochT0 := t.tm })
    | some l =>
      match writeLeaf drift l t with
      | .inr e => some (kv, failed drift t l e)
      | .inl l' =>
        some (some (setKey (kv.getD []) t.table t.key l'),
          if l.leasor ≠ [] ∧ l.endTm ≠ 0 ∧ ¬ (t.reqDur ≠ 0 ∧ l.leasor = t.leasor ∧ l.leasorPeer = t.fromID) then
            { t with epoch := l'.epoch, writeIdx := t.idx, prevVal := l.value, prevVtype := l.vtype }
          else { t with epoch := l'.epoch, writeIdx := t.idx })

/-- actions.go:510-512 `kvstoreWouldWriteLease`: the dry run, answered from the leader's clock. -/
def wouldWrite (drift : Int) (now : Int) (kv : Store) (t : Ticket) : Bool :=
  match leafOf kv t.table t.key with
  | none => true
  | some l =>
    if l.leasor = [] ∨ l.endTm = 0 then true
    else if t.reqDur ≠ 0 ∧ now + t.reqDur ≤ l.endTm then false
    else if t.reqDur ≠ 0 ∧ l.leasor = t.leasor ∧ l.leasorPeer = t.fromID then true
    else decide (l.endTm + drift < t.tm)

/-- tube.go:16994-17012: a write that asks for a lease, at a leader that may serve reads locally
(`canServe`), is replicated only if the dry run says it would win; otherwise it is answered with
the current lease. -/
def leaderReplicates (drift now : Int) (canServe : Bool) (kv : Store) (t : Ticket) : Bool :=
  if t.leasor ≠ [] ∧ 0 < t.reqDur ∧ canServe ∧ ¬ wouldWrite drift now kv t then false else true

/-- tube.go:12031-12039 `validLease`. -/
def validLease (drift : Int) (t : Ticket) (l : Leaf) : Bool :=
  if l.leasor = [] ∨ l.endTm = 0 then false
  else if l.endTm + drift < t.tm then false
  else true

/-- The write at the end of a compare-and-swap, tube.go:12021-12022. -/
def casWrite (drift : Int) (kv : Store) (t : Ticket) : Option (Store × Ticket) :=
  (kvstoreWrite drift kv t).map fun r => (r.1, { r.2 with swapped := r.2.err.isNone })

/-- tube.go:11894-12028 `doCAS`. -/
def doCAS (drift : Int) (kv : Store) (t : Ticket) : Option (Store × Ticket) :=
  match leafOf kv t.table t.key with
  | none =>
    if 0 < t.oldVersion ∨ 0 < t.oldEpoch ∨ t.oldVal ≠ [] then some (kv, { t with err := some .keyNotFound })
    else casWrite drift kv t
  | some l =>
    if validLease drift t l ∧ l.leasor ≠ t.leasor then some (kv, failed drift t l .leased)
    else if 0 < t.oldVersion then
      if t.oldVersion ≠ l.version then some (kv, { failed drift t l .casVersion with swapped := false })
      else casWrite drift kv t
    else if 0 < t.oldEpoch then
      if t.oldEpoch ≠ l.epoch then some (kv, { failed drift t l .casEpoch with swapped := false })
      else casWrite drift kv t
    else if t.oldVal ≠ [] then
      if l.value ≠ t.oldVal then
        some (kv, { failed drift t l .casValue with swapped := false, casCur := l.value })
      else casWrite drift kv t
    else casWrite drift kv t

/-- The auto-delete test of the readers, actions.go:780-782, 838-840, 864-866, 1132-1134, 1367-1369. -/
def expired (table : Key) (now : Int) (l : Leaf) : Bool :=
  l.autoDel && table ≠ dead && l.leasor ≠ [] && decide (l.endTm < now)

/-- actions.go:823-830 `ensureDeadzone`. -/
def ensureDead (m : List (Key × Table)) : List (Key × Table) :=
  match lookup m dead with
  | some _ => m
  | none => put dead [] m

/-- Move a leaf of `table` to "dead" (actions.go:784-785 and alike). -/
def bury (m : List (Key × Table)) (table : Key) (x : Key × Leaf) : List (Key × Table) :=
  let m := ensureDead m
  let m := put dead (put x.1 x.2 ((lookup m dead).getD [])) m
  put table (erase x.1 ((lookup m table).getD [])) m

/-- actions.go:856-878 `KVStoreReadLeaf`. -/
def readLeaf (now : Int) (m : List (Key × Table)) (table key : Key) : List (Key × Table) × Option Leaf :=
  match leafOf (some m) table key with
  | none => (m, none)
  | some l => if expired table now l then (bury m table (key, l), none) else (m, some l)

/-- tube.go:12041-12065 `doReadKey`. -/
def doReadKey (now : Int) (kv : Store) (t : Ticket) : Store × Ticket :=
  match kv with
  | none => (none, { t with err := some .keyNotFound })
  | some m =>
    match readLeaf now m t.table t.key with
    | (m', none) => (some m', { t with err := some .keyNotFound })
    | (m', some l) =>
      (some m',
        { t with err := none, val := l.value, vtype := l.vtype, leasor := l.leasor,
                 leasorPeer := l.leasorPeer, endTm := l.endTm, epoch := l.epoch,
                 epochT0 := l.epochT0, autoDel := l.autoDel, writeIdx := l.writeIdx,
                 versionRead := l.version })

/-- Visit leaves in order: bury the expired, collect the others (actions.go:776-820). -/
def visit (table : Key) (now : Int) : List (Key × Table) → List (Key × Leaf) →
    List (Key × Table) × List (Key × Leaf)
  | m, [] => (m, [])
  | m, x :: xs =>
    if expired table now x.2 then visit table now (bury m table x) xs
    else
      let r := visit table now m xs
      (r.1, put x.1 x.2 r.2)

/-- art/iterator.go:449-458 `inRange`, ascending. -/
def inAsc (beg endx k : Key) : Bool := ble beg k && (endx = [] || blt k endx)

/-- The same, descending from `start` down to, not including, `endx`. -/
def inDesc (endx start k : Key) : Bool := (ble k start || start = []) && (endx = [] || blt endx k)

/-- actions.go:763-821 `kvstoreRangeScan`: the keys visited, in order. -/
def rangeKeys (tab : Table) (t : Ticket) : List (Key × Leaf) :=
  if t.descend then tab.reverse.filter fun x => inDesc t.keyEnd t.key x.1
  else tab.filter fun x => inAsc t.key t.keyEnd x.1

/-- actions.go:1347-1399 `kvstorePrefixScan`: the keys visited, in order. -/
def prefixKeys (tab : Table) (t : Ticket) : List (Key × Leaf) :=
  (if t.descend then tab.reverse.filter fun x => inDesc [] t.key x.1
   else tab.filter fun x => inAsc t.key [] x.1).takeWhile fun x => t.key.isPrefixOf x.1

/-- doReadKeyRange, doReadPrefixRange (tube.go:12067-12083) with the scan they call. -/
def doScan (sel : Table → Ticket → List (Key × Leaf)) (now : Int) (kv : Store) (t : Ticket) : Store × Ticket :=
  match kv with
  | none => (none, { t with err := some .keyNotFound })
  | some m =>
    match lookup m t.table with
    | none => (some m, { t with err := some .keyNotFound, scan := [] })
    | some tab =>
      let r := visit t.table now (ensureDead m) (sel tab t)
      (some r.1, { t with err := none, scan := r.2 })

/-- actions.go:1101-1145 `doShowKeys`; leaves listed carry no value. -/
def doShowKeys (now : Int) (kv : Store) (t : Ticket) : Store × Ticket :=
  match kv with
  | none => (none, { t with err := some .keyNotFound })
  | some [] => (some [], { t with err := some .keyNotFound })
  | some m =>
    if t.table = [] then (some m, { t with scan := m.map fun x => (x.1, {}) })
    else
      match lookup m t.table with
      | none => (some m, { t with err := some .keyNotFound, scan := [] })
      | some tab =>
        let r := visit t.table now (ensureDead m) tab
        (some r.1, { t with scan := r.2.map fun x => (x.1, {}) })

/-- actions.go:906-948 `doDeleteKey`. -/
def doDeleteKey (drift now : Int) (kv : Store) (t : Ticket) : Store × Ticket :=
  match kv with
  | none => (none, t)
  | some m =>
    match lookup m t.table with
    | none => (some m, t)
    | some _ =>
      match readLeaf now m t.table t.key with
      | (m', none) => (some m', { t with err := some .keyNotFound })
      | (m', some l) =>
        if l.leasor = [] ∨ l.endTm = 0 ∨ l.leasor = t.leasor ∨ l.endTm + drift < t.tm then
          (some (put t.table (erase t.key ((lookup m' t.table).getD [])) m'), { t with err := none })
        else (some m', { t with err := some .leased })

/-- actions.go:958-967 `doMakeTable`; `none` is the nil dereference. -/
def doMakeTable (kv : Store) (t : Ticket) : Option (Store × Ticket) :=
  if t.table = [] then some (kv, t)
  else
    match kv with
    | none => none
    | some m =>
      match lookup m t.table with
      | some _ => some (some m, t)
      | none => some (some (put t.table [] m), t)

/-- actions.go:969-979 `doDeleteTable`. -/
def doDeleteTable (kv : Store) (t : Ticket) : Option (Store × Ticket) :=
  match kv with
  | none => none
  | some m => if t.table = [] then some (some m, t) else some (some (erase t.table m), t)

/-- actions.go:981-1012 `doRenameTable`. -/
def doRenameTable (kv : Store) (t : Ticket) : Option (Store × Ticket) :=
  match kv with
  | none => none
  | some m =>
    if m = [] then some (some m, { t with err := some .keyNotFound })
    else if t.table = [] then some (some m, { t with err := some .noTableName })
    else if t.newTable = [] then some (some m, { t with err := some .noNewName })
    else if t.newTable = t.table then some (some m, t)
    else if (lookup m t.newTable).isSome then some (some m, { t with err := some .newNameExists })
    else
      match lookup m t.table with
      | none => some (some m, { t with err := some .tableNotFound })
      | some tab => some (some (erase t.table (put t.newTable tab m)), t)

/-- tube.go:10360-10490: the operation switch of `commitWhatWeCan`. `none` is a panic. -/
def apply (drift now : Int) (kv : Store) (t : Ticket) : Option (Store × Ticket) :=
  match t.op with
  | .noop => some (kv, t)
  | .write => kvstoreWrite drift kv t
  | .cas => doCAS drift kv t
  | .read => some (doReadKey now kv t)
  | .deleteKey => some (doDeleteKey drift now kv t)
  | .makeTable => doMakeTable kv t
  | .deleteTable => doDeleteTable kv t
  | .renameTable => doRenameTable kv t
  | .showKeys => some (doShowKeys now kv t)
  | .readKeyRange => some (doScan rangeKeys now kv t)
  | .readPrefixRange => some (doScan prefixKeys now kv t)

/-- Apply a log: each ticket with the local time at which it is applied. The final store and the
answers. -/
def applyAll (drift : Int) (kv : Store) : List (Ticket × Int) → Option (Store × List Ticket)
  | [] => some (kv, [])
  | (t, now) :: ts =>
    (apply drift now kv t).bind fun r => (applyAll drift r.1 ts).map fun q => (q.1, r.2 :: q.2)

end Verif.KV
