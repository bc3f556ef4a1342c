/-!
# Model of `stxxl::vector`

Models `/repo/include/stxxl/bits/containers/vector.h` (class `vector`). `B` is `block_type::size` (elements per block),
`P` is `page_size` (blocks per page); both positive.

Simplifications: sizes are `Nat`; block ids are numbers; the ids returned by the block manager are an argument
(`fresh`; C06 says what can be assumed of it); the page to evict is an argument (`victim`; C07); requests are waited for
inside `read_page`/`write_page`, so disk transfers are instantaneous; elements are values of a type `α` (no
references into the cache: `push_back(v[i])` with a reference argument is outside the model). I/O errors are not
modelled. The result `none` stands for a failed `assert` or an out-of-bounds access.
-/

namespace Stxxl.ExtVector

/-- The page status enum, `vector.h:913`. -/
inductive Status where
  | valid
  | uninit
  | dirty
  deriving DecidableEq, Repr

/-- Data members of the vector, `vector.h:907-922`. `p2s` is `m_page_to_slot` (`none` = `on_disk`), `s2p` is
`m_slot_to_page`, `free` is `m_free_slots`, `cache` is `*m_cache` (block index, offset), `npages` is `numpages()`,
`fromFile` is `m_from != NULL`. -/
structure Vec (α : Type) where
  size : Nat
  bids : List Nat
  status : List Status
  p2s : List (Option Nat)
  s2p : Nat → Nat
  free : List Nat
  cache : Nat → Nat → α
  npages : Nat
  fromFile : Bool

/-- The vector with its environment: the disk contents (block id, offset), the blocks the block manager has handed to
this vector and not got back, and the length of the attached file in blocks. -/
structure Sys (α : Type) where
  vec : Vec α
  disk : Nat → Nat → α
  owned : List Nat
  fileBlocks : Nat

/-- Array update. -/
def upd {β : Type} (f : Nat → β) (i : Nat) (v : β) : Nat → β := fun x => if x = i then v else f x

/-- `div_ceil`, `utils.h:196-207`. -/
def divCeil (n d : Nat) : Nat := n / d + (if n % d ≠ 0 then 1 else 0)

/-- `std::vector::resize(n, x)`. -/
def resizeList {β : Type} (l : List β) (n : Nat) (x : β) : List β := l.take n ++ List.replicate (n - l.length) x

/-- The loop of `write_page`, `vector.h:1627-1631`: write cache blocks `i, i+1, …` to the given block ids. -/
def writeBlocks {α} (cache : Nat → Nat → α) : List Nat → Nat → (Nat → Nat → α) → (Nat → Nat → α)
  | [], _, d => d
  | b :: bs, i, d => writeBlocks cache bs (i + 1) (upd d b (cache i))

/-- The loop of `read_page`, `vector.h:1608-1612`. -/
def readBlocks {α} (disk : Nat → Nat → α) : List Nat → Nat → (Nat → Nat → α) → (Nat → Nat → α)
  | [], _, c => c
  | b :: bs, i, c => readBlocks disk bs (i + 1) (upd c i (disk b))

section
variable {α : Type} (B P : Nat)

/-- The block ids of a page: `block_no .. last_block-1`, `vector.h:1606-1607,1624-1625`. -/
def pageBids (bids : List Nat) (page : Nat) : List Nat :=
  (bids.drop (page * P)).take (min (page * P + P) bids.length - page * P)

/-- `read_page`, `vector.h:1599-1616`. -/
def readPage (s : Sys α) (page slot : Nat) : Option (Sys α) :=
  match s.vec.status[page]? with
  | none => none
  | some st =>
    if st = .uninit then some s
    else if ¬ (page * P < min (page * P + P) s.vec.bids.length) then none
    else some { s with vec := { s.vec with
      cache := readBlocks s.disk (pageBids P s.vec.bids page) (slot * P) s.vec.cache } }

/-- `write_page`, `vector.h:1617-1636`. -/
def writePage (s : Sys α) (page slot : Nat) : Option (Sys α) :=
  match s.vec.status[page]? with
  | none => none
  | some st =>
    if st ≠ .dirty then some s
    else if ¬ (page * P < min (page * P + P) s.vec.bids.length) then none
    else some { s with
      disk := writeBlocks s.vec.cache (pageBids P s.vec.bids page) (slot * P) s.disk
      vec := { s.vec with status := s.vec.status.set page .valid } }

/-- The part common to `element` (`vector.h:1651-1690`) and `const_element` (`vector.h:1733-1768`): make the page
cached and return its slot. (`element` also sets the status to dirty, see below.) -/
def fetch (s : Sys α) (page victim : Nat) : Option (Sys α × Nat) :=
  match s.vec.p2s[page]? with
  | none => none
  | some (some slot) => some (s, slot)
  | some none =>
    match s.vec.free with
    | [] =>
      -- has to kick, line 1656-1670
      let old := s.vec.s2p victim
      if old < s.vec.p2s.length then
        let s1 := { s with vec := { s.vec with
          p2s := (s.vec.p2s.set page (some victim)).set old none
          s2p := upd s.vec.s2p victim page } }
        match writePage P s1 old victim with
        | none => none
        | some s2 =>
          match readPage P s2 page victim with
          | none => none
          | some s3 => some (s3, victim)
      else none
    | slot :: rest =>
      -- line 1674-1684
      let s1 := { s with vec := { s.vec with
        free := rest
        p2s := s.vec.p2s.set page (some slot)
        s2p := upd s.vec.s2p slot page } }
      match readPage P s1 page slot with
      | none => none
      | some s2 => some (s2, slot)

/-- Page, block in page and offset of an element: `double_blocked_index::set`, `vector.h:59-65`. -/
def pageOf (i : Nat) : Nat := i / (P * B)
def blockOf (i : Nat) : Nat := (i - pageOf B P i * (P * B)) / B
def offOf (i : Nat) : Nat := i - pageOf B P i * (P * B) - blockOf B P i * B

/-- `const_element`, `vector.h:1731-1770`: read element `i`. -/
def constElement (s : Sys α) (i victim : Nat) : Option (Sys α × α) :=
  match fetch P s (pageOf B P i) victim with
  | none => none
  | some (s', slot) => some (s', s'.vec.cache (slot * P + blockOf B P i) (offOf B P i))

/-- `m_page_status[page_no] = dirty`, `vector.h:1668,1682,1689`. -/
def setDirty (s : Sys α) (page : Nat) : Sys α :=
  { s with vec := { s.vec with status := s.vec.status.set page .dirty } }

/-- `element` used as an rvalue (`x = v[i]` on a non-const vector), `vector.h:1646-1693`. -/
def elementRead (s : Sys α) (i victim : Nat) : Option (Sys α × α) :=
  match fetch P s (pageOf B P i) victim with
  | none => none
  | some (s', slot) =>
    let s'' := setDirty s' (pageOf B P i)
    some (s'', s''.vec.cache (slot * P + blockOf B P i) (offOf B P i))

/-- `element(i) = v`, `vector.h:1646-1693`. -/
def elementWrite (s : Sys α) (i : Nat) (v : α) (victim : Nat) : Option (Sys α) :=
  match fetch P s (pageOf B P i) victim with
  | none => none
  | some (s', slot) =>
    let s'' := setDirty s' (pageOf B P i)
    let c := slot * P + blockOf B P i
    some { s'' with vec := { s''.vec with
      cache := upd s''.vec.cache c (upd (s''.vec.cache c) (offOf B P i) v) } }

/-- `capacity`, `vector.h:1039-1042`. -/
def capacity (v : Vec α) : Nat := v.bids.length * B

/-- `reserve`, `vector.h:1057-1088`; `fresh` are the block ids obtained from the block manager. -/
def reserve (s : Sys α) (n : Nat) (fresh : List Nat) : Sys α :=
  if n ≤ capacity B s.vec then s
  else
    let old := s.vec.bids.length
    let newB := divCeil n B
    let newPages := divCeil newB P
    let v := { s.vec with
      status := resizeList s.vec.status newPages .uninit
      p2s := resizeList s.vec.p2s newPages none }
    if s.vec.fromFile then
      { s with vec := { v with bids := s.vec.bids ++ List.range' old (newB - old) }, fileBlocks := newB }
    else
      { s with vec := { v with bids := s.vec.bids ++ fresh }, owned := s.owned ++ fresh }

/-- Loop of `_resize`, `vector.h:1118-1124`; `k` iterations starting with page `i`. -/
def evictLoop (s : Sys α) : Nat → Nat → Sys α
  | 0, _ => s
  | k + 1, i =>
    let s' : Sys α := match s.vec.p2s[i]? with
      | some (some slot) => { s with vec := { s.vec with
          free := s.vec.free ++ [slot], p2s := s.vec.p2s.set i none } }
      | _ => s
    evictLoop { s' with vec := { s'.vec with status := s'.vec.status.set i .uninit } } k (i + 1)

/-- `_resize`, `vector.h:1112-1127`. -/
def resizeV (s : Sys α) (n : Nat) (fresh : List Nat) : Sys α :=
  let s1 := reserve B P s n fresh
  let s2 :=
    if n < s1.vec.size then
      let first := divCeil n (B * P)
      evictLoop s1 (s1.vec.status.length - first) first
    else s1
  { s2 with vec := { s2.vec with size := n } }

/-- `delete_blocks(begin, end)`: the block manager gets the given blocks back. -/
def release (owned blocks : List Nat) : List Nat := owned.filter (fun b => !blocks.contains b)

/-- `_resize_shrink_capacity`, `vector.h:1130-1166`. Line 1152 really says `begin() + old_bids_size`. -/
def resizeShrink (s : Sys α) (n : Nat) (fresh : List Nat) : Sys α :=
  let old := s.vec.bids.length
  let newB := divCeil n B
  if newB > old then
    let s1 := reserve B P s n fresh
    { s1 with vec := { s1.vec with size := n } }
  else if newB < old then
    let newPages := divCeil newB P
    let s1 : Sys α :=
      if s.vec.fromFile then { s with fileBlocks := newB }
      else { s with owned := release s.owned (s.vec.bids.drop old) }
    { s1 with vec := { s1.vec with
        bids := s1.vec.bids.take newB
        status := s1.vec.status.take newPages ++
          List.replicate (s1.vec.status.length - newPages) .valid
        size := n } }
  else { s with vec := { s.vec with size := n } }

/-- `clear`, `vector.h:1174-1188`. -/
def clear (s : Sys α) : Sys α :=
  { s with
    owned := if s.vec.fromFile then s.owned else release s.owned s.vec.bids
    vec := { s.vec with size := 0, bids := [], status := [], p2s := [], free := List.range s.vec.npages } }

/-- `push_back`, `vector.h:1194-1199`. -/
def pushBack (s : Sys α) (v : α) (victim : Nat) (fresh : List Nat) : Option (Sys α) :=
  elementWrite B P (resizeV B P s (s.vec.size + 1) fresh) s.vec.size v victim

/-- `pop_back`, `vector.h:1201-1204`. -/
def popBack (s : Sys α) : Sys α := resizeV B P s (s.vec.size - 1) []

/-- Loop of `flush`, `vector.h:1458-1470`; `nonFree` is the local array, `k` iterations starting with slot `i`. -/
def flushLoop (nonFree : Nat → Bool) (s : Sys α) : Nat → Nat → Option (Sys α)
  | 0, _ => some s
  | k + 1, i =>
    let s1 := { s with vec := { s.vec with free := s.vec.free ++ [i] } }
    let page := s.vec.s2p i
    if nonFree i then
      match writePage P s1 page i with
      | none => none
      | some s2 =>
        if page < s2.vec.p2s.length then
          flushLoop nonFree { s2 with vec := { s2.vec with p2s := s2.vec.p2s.set page none } } k (i + 1)
        else none
    else flushLoop nonFree s1 k (i + 1)

/-- `flush`, `vector.h:1445-1471`. -/
def flush (s : Sys α) : Option (Sys α) :=
  let nonFree : Nat → Bool := fun i => !s.vec.free.contains i
  flushLoop P nonFree { s with vec := { s.vec with free := [] } } s.vec.npages 0

/-- `page_externally_updated`, `vector.h:1696-1712`. -/
def pageExternallyUpdated (s : Sys α) (page : Nat) : Option (Sys α) :=
  match s.vec.status[page]?, s.vec.p2s[page]? with
  | some st, some m =>
    if st = .dirty then none
    else
      let s' : Sys α := match m with
        | some slot => { s with vec := { s.vec with
            free := s.vec.free ++ [slot], p2s := s.vec.p2s.set page none } }
        | none => s
      some { s' with vec := { s'.vec with status := s'.vec.status.set page .valid } }
  | _, _ => none

/-- An algorithm writes block number `k` of the vector directly on disk and reports it with
`block_externally_updated`, `vector.h:1714-1719` (as `vector_bufwriter` and `sort` do). -/
def externalWrite (s : Sys α) (k : Nat) (c : Nat → α) : Option (Sys α) :=
  match s.vec.bids[k]? with
  | none => none
  | some b => pageExternallyUpdated { s with disk := upd s.disk b c } ((k * B) / (B * P))

/-- Constructor `vector(n, npages)`, `vector.h:953-978`. The initial contents of the cache, of `m_slot_to_page` and of
the disk are arbitrary. -/
def newVec (n npages : Nat) (fresh : List Nat) (s2p : Nat → Nat) (cache disk : Nat → Nat → α) : Sys α :=
  let pages := divCeil (divCeil n B) P
  { vec := { size := n, bids := fresh
             status := List.replicate pages .uninit, p2s := List.replicate pages none
             s2p := s2p, free := List.range npages, cache := cache, npages := npages, fromFile := false }
    disk := disk, owned := fresh, fileBlocks := 0 }

/-- Constructor from a file, `vector.h:1244-1286` (`size` given or derived from the file length). -/
def newFromFile (n npages : Nat) (s2p : Nat → Nat) (cache disk : Nat → Nat → α) : Sys α :=
  let nb := divCeil n B
  let pages := divCeil nb P
  { vec := { size := n, bids := List.range nb
             status := List.replicate pages .valid, p2s := List.replicate pages none
             s2p := s2p, free := List.range npages, cache := cache, npages := npages, fromFile := true }
    disk := disk, owned := [], fileBlocks := nb }

/-- `set_content` on an empty vector, `vector.h:1553-1563`: use the given blocks, which already hold the data. -/
def setContent (s : Sys α) (bids : List Nat) (n : Nat) : Sys α :=
  let pages := divCeil (divCeil n B) P
  { s with
    vec := { s.vec with size := n, bids := bids
                        status := resizeList s.vec.status pages .valid
                        p2s := resizeList s.vec.p2s pages none }
    owned := s.owned ++ bids }

/-- Destructor, `vector.h:1478-1515` (not exported). Returns the disk and the blocks still owned afterwards. -/
def destroy (s : Sys α) : Option (Sys α) :=
  (flush P s).map (fun s' =>
    if s'.vec.fromFile then { s' with fileBlocks := divCeil s'.vec.size B }
    else { s' with owned := release s'.owned s'.vec.bids })

end

end Stxxl.ExtVector
