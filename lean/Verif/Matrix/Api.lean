import Verif.Matrix.Model

/-!
# Model of the class `stxxl::matrix`

Models `matrix` of `/repo/include/stxxl/bits/containers/matrix.h:1028-1340`: dimensions and a counting pointer to the block matrix, which several
matrices can share until one of them is changed (copy on write).

Simplifications:
* a program has numbered variables; a variable holds a matrix or nothing;
* the reference count of a block matrix is the number of variables that refer to it (that `counting_ptr` counts this number is C35);
* addresses of block matrices are numbers that are not used again;
* elements are accessed with temporary iterators (`*m(row, col)`);
* the violated `assert`s and undefined behaviour are the outcome `none`.
-/

namespace Stxxl.Mat

variable {R : Type} [CommRing R]

/-- `matrix` (`matrix.h:1069-1071`). -/
structure Mat where
  height : Nat
  width : Nat
  /-- `data`, the counting pointer -/
  data : Nat
  deriving DecidableEq

/-- The block scheduler, the block matrices and the variables of the program. -/
structure World (R : Type) where
  st : St R
  obj : Nat → SBM
  nobj : Nat
  vars : List (Option Mat)

/-- The program starts with `n` empty variables. -/
def World.init (n : Nat) : World R :=
  { st := { blk := fun _ => none, next := 0, free := [] }, obj := fun _ => ⟨0, 0, 0, 0, [], false⟩, nobj := 0, vars := List.replicate n none }

/-- `div_ceil` (`utils.h:196-209`). -/
def divCeil (n d : Nat) : Nat := n / d + if n % d = 0 then 0 else 1

/-- The variable `x`. -/
def World.var (w : World R) (x : Nat) : Option Mat := (w.vars[x]?).join

/-- The variable refers to block matrix `d`. -/
def refers (d : Nat) : Option Mat → Bool
  | some m => m.data == d
  | none => false

/-- The reference count of block matrix `d`. -/
def cnt (vars : List (Option Mat)) (d : Nat) : Nat := vars.countP (refers d)

/-- The block matrix of `m`. -/
def World.sbm (w : World R) (m : Mat) : SBM := w.obj m.data

/-- `new swappable_block_matrix_type(...)` with given result. -/
def World.push (w : World R) (p : SBM × St R) : World R :=
  { w with st := p.2, obj := fun d => if d = w.nobj then p.1 else w.obj d, nobj := w.nobj + 1 }

/-- Construction of `matrix(bs, height, width)` (`matrix.h:1081-1090`). -/
def World.newMat (B : Nat) (w : World R) (h wd : Nat) : Mat × World R :=
  (⟨h, wd, w.nobj⟩, w.push (newSbm w.st (divCeil h B) (divCeil wd B) false))

/-- Assignment, construction and destruction of variables: the old block matrix is deleted if nothing refers to it any more. -/
def World.assign (w : World R) (x : Nat) (m : Option Mat) : World R :=
  let vs := w.vars.set x m
  match w.var x with
  | none => { w with vars := vs }
  | some o => if cnt vs o.data = 0 then { w with vars := vs, st := destroy w.st (w.obj o.data) } else { w with vars := vs }

/-- `data.unify()` (`counting_ptr.h:150-154`): returns the matrix afterwards. -/
def World.unify (B : Nat) (w : World R) (x : Nat) (m : Mat) : Mat × World R :=
  if cnt w.vars m.data = 1 then (m, w)
  else
    let m' : Mat := { m with data := w.nobj }
    (m', (w.push (copySbm B w.st (w.sbm m))).assign x (some m'))

/-- Something done with the store. -/
def World.run (w : World R) (f : St R → St R) : World R := { w with st := f w.st }

/-- Index of the block that holds element (r, c). -/
def elemBlock (B : Nat) (o : SBM) (r c : Nat) : Nat := o.block (r / B) (c / B)

/-- `elem_index_in_block_from_elem` (`matrix.h:378-383`). -/
def elemIdx (B : Nat) (o : SBM) (r c : Nat) : Nat := idx B o.tr (r % B) (c % B)

/-- `acquire` of a block: an uninitialized block is filled with zeros. -/
def acquired (s : St R) (i : Nat) : Raw R := (s.blk i).getD fun _ => 0

/-- `*m(row, col)` as a value. -/
def readElem (B : Nat) (o : SBM) (r c : Nat) (s : St R) : R × St R :=
  (acquired s (elemBlock B o r c) (elemIdx B o r c), s.set (elemBlock B o r c) (some (acquired s (elemBlock B o r c))))

/-- `*m(row, col) = v`. -/
def writeElem (B : Nat) (o : SBM) (r c : Nat) (v : R) (s : St R) : St R :=
  s.set (elemBlock B o r c) (some fun k => if k = elemIdx B o r c then v else acquired s (elemBlock B o r c) k)

/-- The multiplication algorithms number 0, 1, 2, 4 and 5 of `multiply`. -/
inductive Alg
  | naive
  | recursive
  | strassen
  | strassenMul
  | interleaved
  deriving DecidableEq

/-- The second `switch` of `multiply` (`matrix.h:1306-1330`). The result matrix is new (zero). -/
def mulAlg (B : Nat) : Alg → SBM → SBM → SBM → St R → St R
  | .naive, A, D, C, s => naiveMul B A D C s
  | .recursive, A, D, C, s => recursiveMul B A D C s
  | .strassen, A, D, C, s => swAdd B (C.h + 1) A D C s
  | .strassenMul, A, D, C, s => swMul B (C.h + 1) A D C s
  | .interleaved, A, D, C, s => swInter B (C.h + 1) A D C s

/-- Statements of a program. -/
inductive Cmd (R : Type)
  /-- `matrix x(bs, h, w)` or `x = matrix(bs, h, w)` -/
  | new (x h w : Nat)
  /-- `x = y`, `matrix x(y)` -/
  | copy (x y : Nat)
  /-- end of the life of `x` -/
  | drop (x : Nat)
  /-- `*x(r, c) = v` -/
  | set (x r c : Nat) (v : R)
  /-- `*x(r, c)` with a const iterator -/
  | get (x r c : Nat)
  /-- `*x(r, c)` with a non-const iterator -/
  | getNc (x r c : Nat)
  | transpose (x : Nat)
  | setZero (x : Nat)
  /-- `x = a + b` -/
  | add (x a b : Nat)
  /-- `x = a - b` -/
  | sub (x a b : Nat)
  /-- `x = a * k` -/
  | scal (x a : Nat) (k : R)
  /-- `x += y` -/
  | addTo (x y : Nat)
  /-- `x -= y` -/
  | subTo (x y : Nat)
  /-- `x *= k` -/
  | scalTo (x : Nat) (k : R)
  /-- `x = a.multiply(b, alg)`; `x *= b` is `mul .recursive x x b` -/
  | mul (alg : Alg) (x a b : Nat)

/-- Execution of a statement (`matrix.h:1081-1340`). -/
def step (B : Nat) (w : World R) : Cmd R → Option (World R × Option R)
  | .new x h wd =>
    if x < w.vars.length then
      let p := w.newMat B h wd
      some (p.2.assign x (some p.1), none)
    else none
  | .copy x y =>
    match w.var y with
    | some m => if x < w.vars.length then some (w.assign x (some m), none) else none
    | none => none
  | .drop x => if x < w.vars.length then some (w.assign x none, none) else none
  | .set x r c v =>
    match w.var x with
    | some m =>
      if r < m.height ∧ c < m.width then
        let p := w.unify B x m
        some (p.2.run (writeElem B (p.2.sbm p.1) r c v), none)
      else none
    | none => none
  | .get x r c =>
    match w.var x with
    | some m =>
      if r < m.height ∧ c < m.width then
        some (w.run fun s => (readElem B (w.sbm m) r c s).2, some (readElem B (w.sbm m) r c w.st).1)
      else none
    | none => none
  | .getNc x r c =>
    match w.var x with
    | some m =>
      if r < m.height ∧ c < m.width then
        let p := w.unify B x m
        some (p.2.run fun s => (readElem B (p.2.sbm p.1) r c s).2, some (readElem B (p.2.sbm p.1) r c p.2.st).1)
      else none
    | none => none
  | .transpose x =>
    match w.var x with
    | some m =>
      let p := w.unify B x m
      some ({ p.2 with
        obj := fun d => if d = p.1.data then (p.2.obj p.1.data).transpose else p.2.obj d
        vars := p.2.vars.set x (some { p.1 with height := p.1.width, width := p.1.height }) }, none)
    | none => none
  | .setZero x =>
    match w.var x with
    | some m =>
      if cnt w.vars m.data = 1 then some (w.run (Mat.setZero (w.sbm m)), none)
      else
        let p := w.newMat B m.height m.width
        some (p.2.assign x (some p.1), none)
    | none => none
  | .add x a b =>
    match w.var a, w.var b with
    | some ma, some mb =>
      if x < w.vars.length ∧ ma.height = mb.height ∧ ma.width = mb.width then
        let p := w.newMat B ma.height ma.width
        some ((p.2.run (elementOp3 B .add (p.2.sbm p.1) (w.sbm ma) (w.sbm mb))).assign x (some p.1), none)
      else none
    | _, _ => none
  | .sub x a b =>
    match w.var a, w.var b with
    | some ma, some mb =>
      if x < w.vars.length ∧ ma.height = mb.height ∧ ma.width = mb.width then
        let p := w.newMat B ma.height ma.width
        some ((p.2.run (elementOp3 B .sub (p.2.sbm p.1) (w.sbm ma) (w.sbm mb))).assign x (some p.1), none)
      else none
    | _, _ => none
  | .scal x a k =>
    match w.var a with
    | some ma =>
      if x < w.vars.length then
        let p := w.newMat B ma.height ma.width
        some ((p.2.run (elementOp2 B (.scal k) (p.2.sbm p.1) (w.sbm ma))).assign x (some p.1), none)
      else none
    | none => none
  | .addTo x y =>
    match w.var x, w.var y with
    | some mx, some my =>
      if mx.height = my.height ∧ mx.width = my.width then
        let p := w.unify B x mx
        match p.2.var y with
        | some my => some (p.2.run (elementOp2 B .add (p.2.sbm p.1) (p.2.sbm my)), none)
        | none => none
      else none
    | _, _ => none
  | .subTo x y =>
    match w.var x, w.var y with
    | some mx, some my =>
      if mx.height = my.height ∧ mx.width = my.width then
        let p := w.unify B x mx
        match p.2.var y with
        | some my => some (p.2.run (elementOp2 B .sub (p.2.sbm p.1) (p.2.sbm my)), none)
        | none => none
      else none
    | _, _ => none
  | .scalTo x k =>
    match w.var x with
    | some m =>
      let p := w.unify B x m
      some (p.2.run (elementOp1 B (.scal k) (p.2.sbm p.1)), none)
    | none => none
  | .mul alg x a b =>
    match w.var a, w.var b with
    | some ma, some mb =>
      if x < w.vars.length ∧ ma.width = mb.height then
        let p := w.newMat B ma.height mb.width
        some ((p.2.run (mulAlg B alg (w.sbm ma) (w.sbm mb) (p.2.sbm p.1))).assign x (some p.1), none)
      else none
    | _, _ => none

/-- Execution of a program: the values read. -/
def exec (B : Nat) : World R → List (Cmd R) → Option (World R × List R)
  | w, [] => some (w, [])
  | w, c :: cs =>
    match step B w c with
    | some (w', o) =>
      match exec B w' cs with
      | some (w'', os) => some (w'', o.toList ++ os)
      | none => none
    | none => none

end Stxxl.Mat
