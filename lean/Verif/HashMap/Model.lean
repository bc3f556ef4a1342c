/-!
# Model of `stxxl::unordered_map` (`hash_map`)

Sources: `include/stxxl/bits/containers/hash_map/{hash_map,util,iterator,iterator_map}.h`.

Simplifications (all of them):
* The block cache is transparent: a subblock fetched through it is what the last write stored on
  disk (`block_cache.h` is modelled on its own in `Verif.BlockCache`).  The contents of the block
  sequence `bids_` are therefore one function `mem` from flat value positions to values; position
  `p` is value `p % (BS*SS)` of block `p / (BS*SS)`.
* Buffer nodes carry an address (`addr`), drawn from a counter, so that pointer identity is kept;
  the chained list of a bucket is a Lean list of nodes.
* `_bkt_num` (floating point) is the parameter `bk`, and the bucket count
  `ceil(num_total_ / (subblock_size * opt_load_factor))` is the parameter `nb`.
  `Verif.HashMap.Bkt` gives `bk` for IEEE doubles.
* The new blocks written by a rebuild are different from the old blocks being read, which are
  released only afterwards (hash_map.h:1184), so the value stream is materialised before the writer
  runs.
* The registry (`iterator_map`) holds exactly the iterators whose `end_` is false, each under its
  own `i_bucket_`.
* Reading outside `buckets_` and following a dangling node pointer are `none`.
-/
namespace Verif.HashMap

/-- Template parameters and the user's functors (hash_map.h:53-60, 97-106, 142-144). -/
structure Params (K V : Type) where
  /-- user's hash function -/
  hash : K → Nat
  /-- user's strict order on keys -/
  cmp : K → K → Bool
  /-- `subblock_size`: values per subblock -/
  SS : Nat
  /-- `subblocks_per_block` -/
  BS : Nat
  /-- `increase_` of the writer (util.h:345) -/
  incr : Nat
  /-- `key_type()` -/
  dk : K
  /-- `mapped_type()` -/
  dv : V
  /-- `_bkt_num`: number of buckets, hash value ↦ bucket index (hash_map.h:938-945) -/
  bk : Nat → Nat → Nat
  /-- `ceil(num_total / (subblock_size * opt_load_factor))` (hash_map.h:1123) -/
  nb : Nat → Nat
  /-- `max_bucket_count()` (hash_map.h:794) -/
  maxb : Nat

/-- A buffer node (util.h:31-59). -/
structure Node (K V : Type) where
  addr : Nat
  key : K
  val : V
  del : Bool
deriving DecidableEq, Repr

/-- A bucket (util.h:62-91). -/
structure Bucket (K V : Type) where
  list : List (Node K V)
  nExt : Nat
  iBlock : Nat
  iSub : Nat
deriving DecidableEq, Repr

/-- `bucket()` (util.h:77-82). -/
def Bucket.empty {K V : Type} : Bucket K V := ⟨[], 0, 0, 0⟩

/-- `source_type` (hash_map.h:122). -/
inductive Src
  | internal | external | unknown
deriving DecidableEq, Repr

/-- State of a `hash_map::buffered_reader` (util.h:109-134): current block, index in it, the block
and the index of the subblock `subblock_` points to, number of blocks in the sequence. Block numbers
count from the start of `bids_`. -/
structure Reader where
  curr : Nat
  iv : Nat
  sb : Nat
  si : Nat
  endB : Nat
deriving DecidableEq, Repr

/-- State of an iterator object (iterator.h:59-88). -/
structure It (K : Type) where
  id : Nat
  bkt : Nat
  src : Src
  node : Option Nat
  iExt : Nat
  key : K
  extValid : Bool
  ended : Bool
  reader : Option Reader
deriving DecidableEq, Repr

/-- State of a `hash_map` (hash_map.h:142-165) together with the user's iterator objects. -/
structure HMap (K V : Type) where
  buckets : List (Bucket K V)
  mem : Nat → K × V
  nBids : Nat
  bufSize : Nat
  maxBuf : Nat
  numTotal : Nat
  obliv : Bool
  nextAddr : Nat
  its : List (It K)
  nextId : Nat

section
variable {K V : Type} (P : Params K V)

/-- Values per block. -/
def Params.BB : Nat := P.BS * P.SS

/-- `_lt` (hash_map.h:1435-1442). -/
def Params.lt (a b : K) : Bool :=
  decide (P.hash a < P.hash b) || (decide (P.hash a = P.hash b) && P.cmp a b)

/-- `_leq` (hash_map.h:1445-1447). -/
def Params.leq (a b : K) : Bool := !P.lt b a

/-- `_eq` (hash_map.h:1453-1454). -/
def Params.eqv (a b : K) : Bool := !P.cmp a b && !P.cmp b a

/-- `_bkt_num(key, n)` (hash_map.h:938-945). -/
def Params.bktNum (n : Nat) (k : K) : Nat := P.bk n (P.hash k)

/-- 64-bit `++` / `--` of `num_total_`. -/
def inc64 (x : Nat) : Nat := (x + 1) % 2 ^ 64
/-- See `inc64`. -/
def dec64 (x : Nat) : Nat := (x + (2 ^ 64 - 1)) % 2 ^ 64

/-! ## The reader (util.h:95-298) -/

/-- `const_value()` (util.h:192-195). -/
def Reader.value (mem : Nat → K × V) (r : Reader) : K × V :=
  mem (r.sb * P.BB + r.si * P.SS + r.iv % P.SS)

/-- `operator++` (util.h:211-255); prefetching only affects the cache. -/
def Reader.inc (r : Reader) : Reader :=
  if r.curr = r.endB then r
  else if r.iv + 1 < P.BB then
    let r1 := { r with iv := r.iv + 1 }
    if r1.iv % P.SS = 0 then { r1 with sb := r1.curr, si := r1.iv / P.SS } else r1
  else
    let r1 := { r with iv := 0, curr := r.curr + 1 }
    if r1.curr = r.endB then r1
    else { r1 with sb := r1.curr, si := 0 }

/-- `n` increments. -/
def Reader.incN (r : Reader) : Nat → Reader
  | 0 => r
  | n + 1 => Reader.incN (r.inc P) n

/-- `skip_to` (util.h:265-297); the block pointer only moves forward, running off the end if the
target lies behind. -/
def Reader.skipTo (r : Reader) (b i : Nat) : Option Reader :=
  if r.curr = r.endB then some r
  else if b = r.endB then some r
  else if b < r.curr ∨ r.endB < b then none
  else some { r with curr := b, iv := i * P.SS, sb := b, si := i }

/-- Constructor (util.h:143-165) for the blocks from `b0` to the end, starting at subblock `i`. -/
def Reader.mk' (nBids b0 i : Nat) : Reader :=
  if b0 = nBids then ⟨b0, 0, 0, 0, nBids⟩ else ⟨b0, i * P.SS, b0, i, nBids⟩

/-! ## The writer (util.h:302-422) -/

/-- State of a `hash_map::buffered_writer`: block buffer, blocks on disk. -/
structure Writer (K V : Type) where
  buf : Nat → K × V
  mem : Nat → K × V
  nBids : Nat
  iBlock : Nat
  iValue : Nat

/-- Write the block buffer to block `iBlock`, allocating if necessary (util.h:380-389, 405-412).
The buffer handed back by the underlying writer has arbitrary contents; here they stay. -/
def Writer.writeOut (w : Writer K V) : Writer K V :=
  { w with
    mem := fun p => if w.iBlock * P.BB ≤ p ∧ p < (w.iBlock + 1) * P.BB
      then w.buf (p - w.iBlock * P.BB) else w.mem p
    nBids := if w.iBlock = w.nBids then w.nBids + P.incr else w.nBids
    iBlock := w.iBlock + 1
    iValue := 0 }

/-- `append` (util.h:367-391). -/
def Writer.append (w : Writer K V) (x : K × V) : Writer K V :=
  let w1 := { w with buf := fun i => if i = w.iValue then x else w.buf i }
  if w.iValue + 1 < P.BB then { w1 with iValue := w.iValue + 1 }
  else w1.writeOut P

/-- `finish_subblock` (util.h:395-399). -/
def Writer.finishSub (w : Writer K V) : Writer K V :=
  Writer.append P { w with iValue := (w.iValue / P.SS + 1) * P.SS - 1 } (P.dk, P.dv)

/-- `flush` (util.h:402-415). -/
def Writer.flush (w : Writer K V) : Writer K V := w.writeOut P

/-! ## Searching -/

/-- `_find_key_internal` (hash_map.h:954-965). -/
def findInt (k : K) : Option (Node K V) → List (Node K V) → Option (Node K V)
  | old, [] => old
  | old, n :: ns => if P.leq n.key k then findInt k (some n) ns else old

/-- Binary search in a subblock (hash_map.h:1002-1010); `f` reads the subblock. -/
def binSearch (f : Nat → K) (k : K) : Nat → Nat → Nat → Nat
  | 0, lo, _ => lo
  | fuel + 1, lo, hi =>
    if lo + 1 = hi then lo
    else
      let mid := (lo + hi) / 2
      if P.leq (f mid) k then binSearch f k fuel mid hi else binSearch f k fuel lo mid

/-- `_load_subblock` (hash_map.h:1032-1047): position of the first value of subblock `j`. -/
def subPos (b : Bucket K V) (j : Nat) : Nat :=
  (b.iBlock + (b.iSub + j) / P.BS) * P.BB + ((b.iSub + j) % P.BS) * P.SS

/-- Number of subblocks of a bucket (hash_map.h:977-981). -/
def nSub (n : Nat) : Nat := n / P.SS + (if n % P.SS ≠ 0 then 1 else 0)

/-- `_find_key_external` (hash_map.h:971-1024), the loop over subblocks: `todo` subblocks left,
current one `j`. Returns `n_external_` if the key is absent. -/
def findExtGo (mem : Nat → K × V) (b : Bucket K V) (k : K) : Nat → Nat → Nat × (K × V)
  | 0, _ => (b.nExt, (P.dk, P.dv))
  | todo + 1, j =>
    let base := subPos P b j
    let nv := if j + 1 < nSub P b.nExt then P.SS else b.nExt - j * P.SS
    if P.lt (mem (base + (nv - 1))).1 k then findExtGo mem b k todo (j + 1)
    else
      let lo := binSearch P (fun i => (mem (base + i)).1) k nv 0 nv
      let x := mem (base + lo)
      if P.eqv x.1 k then (j * P.SS + lo, x) else (b.nExt, (P.dk, P.dv))

/-- `_find_key_external` (hash_map.h:971-1024). -/
def findExt (mem : Nat → K × V) (b : Bucket K V) (k : K) : Nat × (K × V) :=
  findExtGo P mem b k (nSub P b.nExt) 0

/-! ## Linked-list updates (util.h:42-58; hash_map.h:353-356, 435-439) -/

/-- `node->set_next(new_node)` / `bucket.list_ = new_node`: link `x` behind the node at address
`a`. -/
def linkAfter (a : Nat) (x : Node K V) : List (Node K V) → List (Node K V)
  | [] => []
  | n :: ns => if n.addr = a then n :: x :: ns else n :: linkAfter a x ns

/-- Link behind `node`, or at the head if `node` is NULL. -/
def link (nd : Option (Node K V)) (x : Node K V) (l : List (Node K V)) : List (Node K V) :=
  match nd with
  | some n => linkAfter n.addr x l
  | none => x :: l

/-- Change the node at address `a` in place. -/
def updNode (a : Nat) (f : Node K V → Node K V) (l : List (Node K V)) : List (Node K V) :=
  l.map fun n => if n.addr = a then f n else n

/-- Replace bucket `i`. -/
def HMap.setBucket (s : HMap K V) (i : Nat) (b : Bucket K V) : HMap K V :=
  { s with buckets := s.buckets.set i b }

/-- Change the node at address `a` of bucket `i` (contents `b`) in place. -/
def HMap.modNode (s : HMap K V) (i : Nat) (b : Bucket K V) (a : Nat) (f : Node K V → Node K V) :
    HMap K V :=
  s.setBucket i { b with list := updNode a f b.list }

/-! ## Iterator registry (iterator_map.h) -/

/-- `fix_iterators_2ext` (iterator_map.h:127-156). -/
def fix2ext (bOld : Nat) (k : K) (bNew iExt : Nat) (its : List (It K)) : List (It K) :=
  its.map fun it =>
    if !it.ended && decide (it.bkt = bOld) && P.eqv k it.key then
      { it with bkt := bNew, node := none, iExt := iExt, src := .external, extValid := true,
                reader := none }
    else it

/-- `fix_iterators_2int` (iterator_map.h:160-181). -/
def fix2int (b : Nat) (k : K) (a : Nat) (its : List (It K)) : List (It K) :=
  its.map fun it =>
    if !it.ended && decide (it.bkt = b) && P.eqv it.key k then
      { it with src := .internal, node := some a, iExt := it.iExt + 1,
                reader := it.reader.map (Reader.inc P) }
    else it

/-- `fix_iterators_2end` (iterator_map.h:185-202). -/
def fix2end (b : Nat) (k : K) (its : List (It K)) : List (It K) :=
  its.map fun it =>
    if !it.ended && decide (it.bkt = b) && P.eqv k it.key then
      { it with ended := true, reader := none }
    else it

/-- `fix_iterators_all2end` (iterator_map.h:206-215). -/
def fixAll2end (its : List (It K)) : List (It K) :=
  its.map fun it => if it.ended then it else { it with ended := true, reader := none }

/-! ## The stream of all stored values (util.h:470-571) -/

/-- State of a `HashedValuesStream`: buckets from the current one on, its index, remaining nodes,
`i_external_`, reader. -/
structure VStream (K V : Type) where
  bs : List (Bucket K V)
  i : Nat
  nodes : List (Node K V)
  iExt : Nat
  rd : Reader

/-- A `HashedValue` (util.h:432-460): value, bucket, source. -/
structure HV (K V : Type) where
  val : K × V
  bkt : Nat
  src : Src

/-- The part of `find_next` inside one bucket with `nExt` external values (util.h:529-557). -/
def scanBucket (mem : Nat → K × V) (nExt : Nat) :
    List (Node K V) → Nat → Reader → Option (Src × (K × V)) × List (Node K V) × Nat × Reader
  | [], i, r =>
    if i < nExt then (some (.external, r.value P mem), [], i, r) else (none, [], i, r)
  | n :: ns, i, r =>
    if i < nExt then
      let x := r.value P mem
      if P.leq n.key x.1 then
        let i' := if P.eqv n.key x.1 then i + 1 else i
        let r' := if P.eqv n.key x.1 then r.inc P else r
        if n.del then scanBucket mem nExt ns i' r'
        else (some (.internal, (n.key, n.val)), n :: ns, i', r')
      else (some (.external, x), n :: ns, i, r)
    else if n.del then scanBucket mem nExt ns i r
    else (some (.internal, (n.key, n.val)), n :: ns, i, r)

/-- `find_next` (util.h:524-570): search bucket after bucket. `none` outside: `skip_to` ran off the
sequence; `none` inside: stream is empty. -/
def findNext (mem : Nat → K × V) :
    List (Bucket K V) → Nat → List (Node K V) → Nat → Reader →
    Option (Option (HV K V) × VStream K V)
  | [], i, nodes, ie, r => some (none, ⟨[], i, nodes, ie, r⟩)
  | b :: bs, i, nodes, ie, r =>
    match scanBucket P mem b.nExt nodes ie r with
    | (some (src, x), nodes', ie', r') => some (some ⟨x, i, src⟩, ⟨b :: bs, i, nodes', ie', r'⟩)
    | (none, _, ie', r') =>
      match bs with
      | [] => some (none, ⟨[], i + 1, [], ie', r'⟩)
      | b' :: _ =>
        match r'.skipTo P b'.iBlock b'.iSub with
        | none => none
        | some r'' => findNext mem bs (i + 1) b'.list 0 r''

/-- `operator++` without the final `find_next` (util.h:514-520). -/
def VStream.adv (st : VStream K V) (src : Src) : VStream K V :=
  match src with
  | .internal => { st with nodes := st.nodes.tail }
  | _ => { st with rd := st.rd.inc P, iExt := st.iExt + 1 }

/-- All values the stream delivers from a given state on; `fuel` bounds their number. -/
def streamGo (mem : Nat → K × V) : Nat → VStream K V → Option (List (HV K V))
  | 0, _ => some []
  | fuel + 1, st =>
    match findNext P mem st.bs st.i st.nodes st.iExt st.rd with
    | none => none
    | some (none, _) => some []
    | some (some hv, st') => (streamGo mem fuel (st'.adv P hv.src)).map (hv :: ·)

/-- Upper bound for the number of values in the buckets. -/
def total (bs : List (Bucket K V)) : Nat := (bs.map fun b => b.list.length + b.nExt).sum

/-- Everything a fresh `HashedValuesStream` over the buckets delivers (util.h:492-506, started with
a reader at the first block, hash_map.h:265-267, 1139-1143). -/
def streamAll (s : HMap K V) : Option (List (HV K V)) :=
  streamGo P s.mem (total s.buckets + 1)
    ⟨s.buckets, 0, (s.buckets.head?.map (·.list)).getD [], 0, Reader.mk' P s.nBids 0 0⟩

/-! ## Rebuilding (hash_map.h:1111-1195) -/

/-- Fill bucket `i` of `n` from the stream: the `HashingStream` delivers values while their bucket is
`i` (hash_map.h:1064-1108, 1162-1170). -/
def fillBucket (n i : Nat) : List (HV K V) → Nat → Writer K V → List (It K) →
    List (HV K V) × Nat × Writer K V × List (It K)
  | [], c, w, its => ([], c, w, its)
  | h :: hs, c, w, its =>
    if P.bktNum n h.val.1 ≠ i then (h :: hs, c, w, its)
    else fillBucket n i hs (c + 1) (w.append P h.val) (fix2ext P h.bkt h.val.1 i c its)

/-- The loop over the new buckets (hash_map.h:1153-1175): `todo` buckets left, current one `i`;
returns the buckets, the number of values stored, the writer, the iterators. -/
def fillAll (n : Nat) : Nat → Nat → List (HV K V) → Writer K V → List (It K) →
    List (Bucket K V) × Nat × Writer K V × List (It K)
  | 0, _, _, w, its => ([], 0, w, its)
  | todo + 1, i, hs, w, its =>
    let r := fillBucket P n i hs 0 w its
    let w' := r.2.2.1.finishSub P
    let rest := fillAll n todo (i + 1) r.1 w' r.2.2.2
    (⟨[], r.2.1, w.iBlock, w.iValue / P.SS⟩ :: rest.1, r.2.1 + rest.2.1, rest.2.2.1, rest.2.2.2)

/-- A fresh writer over an empty block sequence (util.h:339-348). -/
def Writer.new : Writer K V := ⟨fun _ => (P.dk, P.dv), fun _ => (P.dk, P.dv), 0, 0, 0⟩

/-- New number of buckets (hash_map.h:1122-1127). -/
def newCount (numTotal desired : Nat) : Nat :=
  if P.nb numTotal < desired then min desired P.maxb else P.nb numTotal

/-- `_rebuild_buckets` (hash_map.h:1111-1195). -/
def rebuild (desired : Nat) (s : HMap K V) : Option (HMap K V) := do
  let hs ← streamAll P s
  let n := newCount P s.numTotal desired
  let r := fillAll P n n 0 hs (Writer.new P) s.its
  let w := r.2.2.1.flush P
  return { s with
    buckets := r.1, mem := w.mem, nBids := w.nBids, numTotal := r.2.1 % 2 ^ 64, its := r.2.2.2,
    bufSize := 0, obliv := false }

/-- `if (buffer_size_ >= max_buffer_size_) _rebuild_buckets();` (hash_map.h:362-363). -/
def checkBuf (s : HMap K V) : Option (HMap K V) :=
  if s.maxBuf ≤ s.bufSize then rebuild P 0 s else some s

/-- Add an iterator object (iterator.h:92-108), returning its id. -/
def HMap.newIt (s : HMap K V) (b : Nat) (node : Option Nat) (iExt : Nat) (src : Src)
    (extValid : Bool) (k : K) : HMap K V × Nat :=
  ({ s with its := ⟨s.nextId, b, src, node, iExt, k, extValid, false, none⟩ :: s.its,
            nextId := s.nextId + 1 }, s.nextId)

/-- `_end<iterator>()` (iterator.h:111-121). -/
def HMap.endIt (s : HMap K V) : HMap K V × Nat :=
  ({ s with its := ⟨s.nextId, 0, .unknown, none, 0, P.dk, false, true, none⟩ :: s.its,
            nextId := s.nextId + 1 }, s.nextId)

/-- Add node `x` (with a fresh address) to bucket `i` behind `nd`, counting it in `buffer_size_`. -/
def HMap.addNode (s : HMap K V) (i : Nat) (b : Bucket K V) (nd : Option (Node K V)) (k : K) (v : V)
    (del : Bool) : HMap K V :=
  { s.setBucket i { b with list := link nd ⟨s.nextAddr, k, v, del⟩ b.list } with
    nextAddr := s.nextAddr + 1, bufSize := s.bufSize + 1 }

/-! ## Operations -/

/-- Constructor (hash_map.h:176-194). -/
def HMap.new (n maxBuf : Nat) : HMap K V :=
  ⟨List.replicate n Bucket.empty, fun _ => (P.dk, P.dv), 0, 0, maxBuf, 0, false, 0, [], 0⟩

/-- `if (buckets_.size() == 0) _rebuild_buckets(128);` (hash_map.h:312-313). -/
def ensureBuckets (s : HMap K V) : Option (HMap K V) :=
  if s.buckets.length = 0 then rebuild P 128 s else some s

/-- `insert(value)` (hash_map.h:310-368): state, iterator, inserted? -/
def insert (k : K) (v : V) (s : HMap K V) : Option (HMap K V × Nat × Bool) := do
  let s ← ensureBuckets P s
  let i := P.bktNum s.buckets.length k
  let b ← s.buckets[i]?
  let nd := findInt P k none b.list
  match nd.filter (fun n => P.eqv n.key k) with
  | some n =>
    if n.del then
      let s1 := { s.modNode i b n.addr (fun n => { n with del := false, key := k, val := v }) with
        numTotal := inc64 s.numTotal }
      let r := s1.newIt i (some n.addr) 0 .internal false k
      return (r.1, r.2, true)
    else
      let r := s.newIt i (some n.addr) 0 .internal false k
      return (r.1, r.2, false)
  | none =>
    let e := findExt P s.mem b k
    if e.1 < b.nExt ∧ P.eqv e.2.1 k = true then
      let r := s.newIt i (nd.map (·.addr)) e.1 .external true k
      return (r.1, r.2, false)
    else
      let s1 := { s.addNode i b nd k v false with numTotal := inc64 s.numTotal }
      let r := s1.newIt i (some s.nextAddr) 0 .internal false k
      let s2 ← checkBuf P r.1
      return (s2, r.2, true)

/-- `insert_oblivious` (hash_map.h:374-416). -/
def insertObl (k : K) (v : V) (s : HMap K V) : Option (HMap K V × Nat) := do
  let i := P.bktNum s.buckets.length k
  let b ← s.buckets[i]?
  let nd := findInt P k none b.list
  match nd.filter (fun n => P.eqv n.key k) with
  | some n =>
    let s1 := { s.modNode i b n.addr (fun n => { n with del := false, key := k, val := v }) with
      numTotal := if n.del then inc64 s.numTotal else s.numTotal }
    return s1.newIt i (some n.addr) 0 .internal false k
  | none =>
    let s1 := { s.addNode i b nd k v false with
      numTotal := inc64 s.numTotal, obliv := true, its := fix2int P i k s.nextAddr s.its }
    let r := s1.newIt i (some s.nextAddr) 0 .internal false k
    let s2 ← checkBuf P r.1
    return (s2, r.2)

/-- `erase(key)` (hash_map.h:452-502). -/
def erase (k : K) (s : HMap K V) : Option (HMap K V × Nat) := do
  let i := P.bktNum s.buckets.length k
  let b ← s.buckets[i]?
  let nd := findInt P k none b.list
  match nd.filter (fun n => P.eqv n.key k) with
  | some n =>
    if n.del then return (s, 0)
    else
      return ({ s.modNode i b n.addr (fun n => { n with del := true }) with
        numTotal := dec64 s.numTotal, its := fix2end P i k s.its }, 1)
  | none =>
    let e := findExt P s.mem b k
    if e.1 < b.nExt ∧ P.eqv e.2.1 k = true then
      let s1 := { s.addNode i b nd k P.dv true with
        numTotal := dec64 s.numTotal, its := fix2end P i k s.its }
      let s2 ← checkBuf P s1
      return (s2, 1)
    else return (s, 0)

/-- `erase_oblivious(key)` (hash_map.h:506-539). -/
def eraseObl (k : K) (s : HMap K V) : Option (HMap K V) := do
  let i := P.bktNum s.buckets.length k
  let b ← s.buckets[i]?
  let nd := findInt P k none b.list
  match nd.filter (fun n => P.eqv n.key k) with
  | some n =>
    if n.del then return s
    else
      return { s.modNode i b n.addr (fun n => { n with del := true }) with
        numTotal := dec64 s.numTotal, its := fix2end P i k s.its }
  | none =>
    let s1 := { s.addNode i b nd k P.dv true with
      numTotal := dec64 s.numTotal, obliv := true, its := fix2end P i k s.its }
    checkBuf P s1

/-- `erase(const_iterator)` (hash_map.h:420-447). -/
def eraseIt (it : It K) (s : HMap K V) : Option (HMap K V) := do
  let b ← s.buckets[it.bkt]?
  if it.src = .internal then
    let a ← it.node
    let _ ← b.list.find? (fun n => n.addr = a)
    return { s.modNode it.bkt b a (fun n => { n with del := true }) with
      numTotal := dec64 s.numTotal, its := fix2end P it.bkt it.key s.its }
  else
    let nd := findInt P it.key none b.list
    let s1 := { s.addNode it.bkt b nd it.key P.dv true with
      numTotal := dec64 s.numTotal, its := fix2end P it.bkt it.key s.its }
    checkBuf P s1

/-- `if (buffer_size_ + 1 >= max_buffer_size_) _rebuild_buckets();` (hash_map.h:624-625). -/
def checkBuf1 (s : HMap K V) : Option (HMap K V) :=
  if s.maxBuf ≤ s.bufSize + 1 then rebuild P 0 s else some s

/-- `find` (hash_map.h:622-675): state, iterator. -/
def find (k : K) (s : HMap K V) : Option (HMap K V × Nat) := do
  let s ← checkBuf1 P s
  let i := P.bktNum s.buckets.length k
  let b ← s.buckets[i]?
  let nd := findInt P k none b.list
  match nd.filter (fun n => P.eqv n.key k) with
  | some n =>
    if n.del then return s.endIt P
    else return s.newIt i (some n.addr) 0 .internal false k
  | none =>
    let e := findExt P s.mem b k
    if e.1 < b.nExt ∧ P.eqv e.2.1 k = true then
      let s1 := { s.addNode i b nd e.2.1 e.2.2 false with
        its := fix2int P i e.2.1 s.nextAddr s.its }
      return s1.newIt i (some s.nextAddr) (e.1 + 1) .internal true k
    else return s.endIt P

/-- `find const` (hash_map.h:679-712). -/
def findC (k : K) (s : HMap K V) : Option (HMap K V × Nat) := do
  let i := P.bktNum s.buckets.length k
  let b ← s.buckets[i]?
  let nd := findInt P k none b.list
  match nd.filter (fun n => P.eqv n.key k) with
  | some n =>
    if n.del then return s.endIt P
    else return s.newIt i (some n.addr) 0 .internal false k
  | none =>
    let e := findExt P s.mem b k
    if e.1 < b.nExt ∧ P.eqv e.2.1 k = true then
      return s.newIt i (nd.map (·.addr)) e.1 .external true k
    else return s.endIt P

/-- `operator[]` (hash_map.h:743-787): state, bucket and address of the node whose `second` is
returned by reference. -/
def index (k : K) (s : HMap K V) : Option (HMap K V × Nat × Nat) := do
  let s ← checkBuf1 P s
  let i := P.bktNum s.buckets.length k
  let b ← s.buckets[i]?
  let nd := findInt P k none b.list
  match nd.filter (fun n => P.eqv n.key k) with
  | some n =>
    if n.del then
      return ({ s.modNode i b n.addr (fun n => { n with del := false, val := P.dv }) with
        numTotal := inc64 s.numTotal }, i, n.addr)
    else return (s, i, n.addr)
  | none =>
    let e := findExt P s.mem b k
    let x := if e.1 < b.nExt ∧ P.eqv e.2.1 k = true then e.2 else (k, P.dv)
    return (s.addNode i b nd x.1 x.2 false, i, s.nextAddr)

/-- Read through a reference to a node. -/
def HMap.readNode (s : HMap K V) (i a : Nat) : Option (K × V) := do
  let b ← s.buckets[i]?
  let n ← b.list.find? (fun n => n.addr = a)
  return (n.key, n.val)

/-- Assign the mapped value through a reference to a node. -/
def HMap.writeNode (s : HMap K V) (i a : Nat) (v : V) : Option (HMap K V) := do
  let b ← s.buckets[i]?
  let _ ← b.list.find? (fun n => n.addr = a)
  return s.modNode i b a (fun n => { n with val := v })

/-- `size()` (hash_map.h:257-287). -/
def size (s : HMap K V) : Option (HMap K V × Nat) := do
  if s.obliv then
    let hs ← streamAll P s
    let s1 := { s with numTotal := hs.length % 2 ^ 64, obliv := false }
    return (s1, s1.numTotal)
  else return (s, s.numTotal)

/-- `clear()` (hash_map.h:542-565). -/
def clear (s : HMap K V) : HMap K V :=
  { s with its := fixAll2end s.its, buckets := s.buckets.map fun _ => Bucket.empty, obliv := false,
           numTotal := 0, bufSize := 0, nBids := 0 }

/-- `max_buffer_size(n)` (hash_map.h:838-843), in nodes. -/
def setMaxBuf (n : Nat) (s : HMap K V) : Option (HMap K V) :=
  checkBuf P { s with maxBuf := n }

/-! ## Iterators (iterator.h) -/

/-- Scan for the smallest external value greater than `k` (iterator.h:221-229). -/
def scanGt (mem : Nat → K × V) (nExt : Nat) (k : K) : Nat → Nat → Reader → Nat × Reader
  | 0, i, r => (i, r)
  | fuel + 1, i, r =>
    if i < nExt then
      if P.lt k (r.value P mem).1 then (i, r) else scanGt mem nExt k fuel (i + 1) (r.inc P)
    else (i, r)

/-- `init_reader` (iterator.h:194-234). -/
def initReader (it : It K) (s : HMap K V) : Option (It K) := do
  let b ← s.buckets[it.bkt]?
  let r := Reader.mk' P s.nBids b.iBlock b.iSub
  if it.extValid then
    return { it with reader := some (r.incN P it.iExt) }
  else match it.node with
    | none => return { it with iExt := 0, extValid := true, reader := some r }
    | some a =>
      let n ← b.list.find? (fun n => n.addr = a)
      let x := scanGt P s.mem b.nExt n.key b.nExt 0 r
      return { it with iExt := x.1, extValid := true, reader := some x.2 }

/-- `if (reader_ == NULL) init_reader();` (iterator.h:257-260, 460-463). -/
def ensureReader (it : It K) (s : HMap K V) : Option (It K) :=
  if it.reader.isNone then initReader P it s else some it

/-- Result of the search of `find_next` in one bucket: source, key, node, position, reader. -/
structure Found (K : Type) where
  src : Src
  key : K
  node : Option Nat
  iExt : Nat
  rd : Reader

/-- Search of `find_next` in one bucket (iterator.h:288-338); `nd` is `node_`. -/
def itScan (mem : Nat → K × V) (nExt : Nat) :
    Option Nat → List (Node K V) → Nat → Reader → Option (Found K) × Reader
  | nd, [], i, r =>
    if i < nExt then (some ⟨.external, (r.value P mem).1, nd, i, r⟩, r) else (none, r)
  | nd, n :: ns, i, r =>
    if i < nExt then
      let x := r.value P mem
      if P.leq n.key x.1 then
        let i' := if P.eqv n.key x.1 then i + 1 else i
        let r' := if P.eqv n.key x.1 then r.inc P else r
        if n.del then itScan mem nExt (some n.addr) ns i' r'
        else (some ⟨.internal, n.key, some n.addr, i', r'⟩, r')
      else (some ⟨.external, x.1, nd, i, r⟩, r)
    else if n.del then itScan mem nExt (some n.addr) ns i r
    else (some ⟨.internal, n.key, some n.addr, i, r⟩, r)

/-- The outer loop (iterator.h:287-357): buckets from the current one on. -/
def itSearch (mem : Nat → K × V) :
    List (Bucket K V) → Nat → Option Nat → List (Node K V) → Nat → Reader →
    Option (Option (Nat × Found K))
  | [], _, _, _, _, _ => some none
  | b :: bs, i, nd, nodes, ie, r =>
    match itScan P mem b.nExt nd nodes ie r with
    | (some f, _) => some (some (i, f))
    | (none, r') =>
      match bs with
      | [] => some none
      | b' :: _ =>
        match r'.skipTo P b'.iBlock b'.iSub with
        | none => none
        | some r'' => itSearch mem bs (i + 1) none b'.list 0 r''

/-- The nodes behind the node at address `a`. -/
def nodesAfter (a : Nat) : List (Node K V) → List (Node K V)
  | [] => []
  | n :: ns => if n.addr = a then ns else nodesAfter a ns

/-- The nodes from the one at address `a` on. -/
def nodesFrom (a : Nat) : List (Node K V) → List (Node K V)
  | [] => []
  | n :: ns => if n.addr = a then n :: ns else nodesFrom a ns

/-- `find_next` (iterator.h:251-369). -/
def itNext (it : It K) (s : HMap K V) : Option (It K) := do
  let b ← s.buckets[it.bkt]?
  let it ← ensureReader P it s
  let r ← it.reader
  let start ← match it.node with
    | some a => (b.list.find? (fun n => n.addr = a)).map fun _ => nodesFrom a b.list
    | none => some b.list
  let p ← match it.src with
    | .external =>
      some (start.dropWhile (fun n => P.leq n.key it.key), it.iExt + 1, r.inc P)
    | .internal => it.node.map fun a => (nodesAfter a b.list, it.iExt, r)
    | .unknown => some (start, it.iExt, r)
  let res ← itSearch P s.mem (s.buckets.drop it.bkt) it.bkt it.node p.1 p.2.1 p.2.2
  match res with
  | none => return { it with ended := true, reader := none, bkt := s.buckets.length }
  | some (i, f) =>
    return { it with bkt := i, src := f.src, key := f.key, node := f.node, iExt := f.iExt,
                     reader := some f.rd }

/-- `_begin` (hash_map.h:848-861). -/
def itBegin (id : Nat) (s : HMap K V) : Option (It K) :=
  match s.buckets with
  | [] => some ⟨id, 0, .unknown, none, 0, P.dk, false, true, none⟩
  | b :: _ =>
    itNext P ⟨id, 0, .unknown, b.list.head?.map (·.addr), 0, P.dk, true, false, none⟩ s

/-- `operator*` (iterator.h:454-467): the iterator (a reader may be created) and the value. -/
def itDeref (it : It K) (s : HMap K V) : Option (It K × (K × V)) := do
  if it.src = .internal then
    let a ← it.node
    let x ← s.readNode it.bkt a
    return (it, x)
  else
    let it ← ensureReader P it s
    let r ← it.reader
    return (it, r.value P s.mem)

/-- Look up a user's iterator object. -/
def HMap.getIt (s : HMap K V) (id : Nat) : Option (It K) := s.its.find? (fun it => it.id = id)

/-- Store a changed iterator object. -/
def HMap.putIt (s : HMap K V) (it : It K) : HMap K V :=
  { s with its := s.its.map fun j => if j.id = it.id then it else j }

/-- Destroy an iterator object (iterator.h:371-378). -/
def HMap.dropIt (s : HMap K V) (id : Nat) : HMap K V :=
  { s with its := s.its.filter fun j => j.id ≠ id }

/-! ## Bulk insertion (hash_map.h:1296-1429) -/

/-- `UniqueValueStream` (hash_map.h:1203-1224) at element `x`, `ys` to come: after delivering an
element, skip the following elements whose `first`, the *hash*, is the same. -/
def uniqGo (x : Nat × (K × V)) : List (Nat × (K × V)) → List (Nat × (K × V))
  | [] => [x]
  | y :: ys => if x.1 = y.1 then uniqGo x ys else x :: uniqGo y ys

/-- `UniqueValueStream` (hash_map.h:1203-1224) over the sorted stream of (hash, value) pairs. -/
def uniq : List (Nat × (K × V)) → List (Nat × (K × V))
  | [] => []
  | x :: xs => uniqGo x xs

/-- The three merge loops for one bucket (hash_map.h:1361-1405). `n`: number of buckets, `i`: this
bucket. -/
def bulkBucket (n i : Nat) : Nat → List (HV K V) → List (Nat × (K × V)) → Nat → Writer K V →
    List (It K) → List (HV K V) × List (Nat × (K × V)) × Nat × Writer K V × List (It K)
  | 0, os, ns, c, w, its => (os, ns, c, w, its)
  | fuel + 1, os, ns, c, w, its =>
    let o := os.head?.filter (fun o => P.bktNum n o.val.1 = i)
    let x := ns.head?.filter (fun x => P.bktNum n x.2.1 = i)
    match o, x with
    | some o, some x =>
      if P.hash o.val.1 < x.1 ∨ (P.hash o.val.1 = x.1 ∧ P.cmp o.val.1 x.2.1 = true) then
        bulkBucket n i fuel os.tail ns (c + 1) (w.append P o.val) (fix2ext P o.bkt o.val.1 i c its)
      else if P.eqv o.val.1 x.2.1 then
        bulkBucket n i fuel os.tail ns.tail (c + 1) (w.append P x.2)
          (fix2ext P o.bkt o.val.1 i c its)
      else bulkBucket n i fuel os ns.tail (c + 1) (w.append P x.2) its
    | some o, none =>
      bulkBucket n i fuel os.tail ns (c + 1) (w.append P o.val) (fix2ext P o.bkt o.val.1 i c its)
    | none, some x => bulkBucket n i fuel os ns.tail (c + 1) (w.append P x.2) its
    | none, none => (os, ns, c, w, its)

/-- The loop over the new buckets (hash_map.h:1350-1410). -/
def bulkAll (n : Nat) : Nat → Nat → List (HV K V) → List (Nat × (K × V)) → Writer K V →
    List (It K) → List (Bucket K V) × Nat × Writer K V × List (It K)
  | 0, _, _, _, w, its => ([], 0, w, its)
  | todo + 1, i, os, ns, w, its =>
    let r := bulkBucket P n i (os.length + ns.length) os ns 0 w its
    let w' := r.2.2.2.1.finishSub P
    let rest := bulkAll n todo (i + 1) r.1 r.2.1 w' r.2.2.2.2
    (⟨[], r.2.2.1, w.iBlock, w.iValue / P.SS⟩ :: rest.1, r.2.2.1 + rest.2.1, rest.2.2.1,
      rest.2.2.2)

/-- `insert(f, l, mem)` (hash_map.h:1297-1429); `sorted` is the output of the stream sorter on the
range with hashes attached (hash_map.h:1342-1344), `sorted.length = l - f`. -/
def bulk (sorted : List (Nat × (K × V))) (s : HMap K V) : Option (HMap K V) := do
  let os ← streamAll P s
  let n := min (P.nb ((s.numTotal + sorted.length) % 2 ^ 64)) P.maxb
  let r := bulkAll P n n 0 os (uniq sorted) (Writer.new P) s.its
  let w := r.2.2.1.flush P
  return { s with
    buckets := r.1, mem := w.mem, nBids := w.nBids, numTotal := r.2.1 % 2 ^ 64, its := r.2.2.2,
    bufSize := 0, obliv := false }

end
end Verif.HashMap
