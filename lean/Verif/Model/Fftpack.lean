import Verif.Model.Basic
import Mathlib.Analysis.SpecialFunctions.Trigonometric.Basic

/-!
# The cosine transform of FFTPACK (src/fftpack4.cc:752-874, 3141-3878, 4014-4268)

Doubles are real numbers; the constants of the library (square roots, sines and cosines, the
number pi), which it gives with some 60 digits, are the exact numbers.  Arrays are functions
from positions (counted from 0) to numbers.  A write outside the part of an array that a routine
owns is undefined behaviour (`Exc.ub`); positions that are only read are not checked.

The array `wsave` of the callers has three parts that do not overlap: the sines and cosines of
`cost` (as many entries as the vector has), the work array of the Fourier transform (one entry
less) and its table of sines and cosines (as many again).  They are three arrays here.
-/

set_option autoImplicit false

namespace Marley.Fft
open Marley

/-- An array of doubles (src/fftpack4.cc:752). -/
abbrev Buf := ℕ → ℝ

/-- Assignments made one after the other (src/fftpack4.cc:3165-3168, for instance). -/
def store (b : Buf) (ws : List (ℕ × ℝ)) : Buf :=
  ws.foldl (fun b w => Function.update b w.1 w.2) b

/-- Assignments to an array with a given number of entries (src/fftpack4.cc:3165-3168, for
instance). -/
def put (cap : ℕ) (b : Buf) (ws : List (ℕ × ℝ)) : Res Buf :=
  if ws.all (fun w => decide (w.1 < cap)) then .ok (store b ws) else .error .ub

/-- Assignments with `+=` (src/fftpack4.cc:3757-3758, for instance). -/
noncomputable def add (cap : ℕ) (b : Buf) (ws : List (ℕ × ℝ)) : Res Buf :=
  if ws.all (fun w => decide (w.1 < cap)) then
    .ok (ws.foldl (fun b w => Function.update b w.1 (b w.1 + w.2)) b)
  else .error .ub

/-- A pointer into an array, as `&wa[iw]` (src/fftpack4.cc:4068, for instance). -/
def from_ (b : Buf) (p : ℕ) : Buf := fun i => b (p + i)

/-- A loop that counts from one number to another (src/fftpack4.cc:3164, for instance). -/
def upTo (a b : ℕ) : List ℕ := (List.range (b + 1 - a)).map (· + a)

/-- A loop over 3, 5, … up to `*ido` (src/fftpack4.cc:3183, for instance). -/
def odds (ido : ℕ) : List ℕ := (List.range ((ido - 1) / 2)).map (fun q => 2 * q + 3)

/-- A loop whose body may be undefined behaviour (src/fftpack4.cc:4052, for instance). -/
def loop {S A : Type} (step : S → A → Res S) : S → List A → Res S
  | s, [] => .ok s
  | s, a :: t => match step s a with
    | .error e => .error e
    | .ok s => loop step s t

/-- Position of `cc[i + (k + cc_dim2 * j) * cc_dim1]` (src/fftpack4.cc:3156-3159); `i`, `k` and `j` are
counted from 1. -/
def ccAt (ido l1 i k j : ℕ) : ℕ := (i - 1) + ido * ((k - 1) + l1 * (j - 1))

/-- Position of `ch[i + (k * ip + j) * ch_dim1]` (src/fftpack4.cc:3153-3155); `i`, `j` and `k` are counted
from 1. -/
def chAt (ido ip i j k : ℕ) : ℕ := (i - 1) + ido * ((j - 1) + ip * (k - 1))

/-! ## The passes -/

/-- `radf2` (src/fftpack4.cc:3141-3216): the assignments to `ch`. -/
def radf2 (ido l1 : ℕ) (cc wa1 : Buf) : List (ℕ × ℝ) :=
  let c := fun i k j => cc (ccAt ido l1 i k j)
  let h := chAt ido 2
  (upTo 1 l1).flatMap (fun k =>
    [(h 1 1 k, c 1 k 1 + c 1 k 2), (h ido 2 k, c 1 k 1 - c 1 k 2)]) ++
  if ido < 2 then []
  else
    (if ido = 2 then [] else
      (upTo 1 l1).flatMap (fun k => (odds ido).flatMap (fun i =>
        let ic := ido + 2 - i
        let tr2 := wa1 (i - 3) * c (i - 1) k 2 + wa1 (i - 2) * c i k 2
        let ti2 := wa1 (i - 3) * c i k 2 - wa1 (i - 2) * c (i - 1) k 2
        [(h i 1 k, c i k 1 + ti2), (h ic 2 k, ti2 - c i k 1),
          (h (i - 1) 1 k, c (i - 1) k 1 + tr2), (h (ic - 1) 2 k, c (i - 1) k 1 - tr2)]))) ++
    if ido ≠ 2 ∧ ido % 2 = 1 then []
    else (upTo 1 l1).flatMap (fun k =>
      [(h 1 2 k, -c ido k 2), (h ido 1 k, c ido k 1)])

/-- `radf3` (src/fftpack4.cc:3218-3295): the assignments to `ch`. -/
noncomputable def radf3 (ido l1 : ℕ) (cc wa1 wa2 : Buf) : List (ℕ × ℝ) :=
  let taur : ℝ := -1 / 2
  let taui : ℝ := √3 / 2
  let c := fun i k j => cc (ccAt ido l1 i k j)
  let h := chAt ido 3
  (upTo 1 l1).flatMap (fun k =>
    let cr2 := c 1 k 2 + c 1 k 3
    [(h 1 1 k, c 1 k 1 + cr2), (h 1 3 k, taui * (c 1 k 3 - c 1 k 2)),
      (h ido 2 k, c 1 k 1 + taur * cr2)]) ++
  if ido = 1 then []
  else
    (upTo 1 l1).flatMap (fun k => (odds ido).flatMap (fun i =>
      let ic := ido + 2 - i
      let dr2 := wa1 (i - 3) * c (i - 1) k 2 + wa1 (i - 2) * c i k 2
      let di2 := wa1 (i - 3) * c i k 2 - wa1 (i - 2) * c (i - 1) k 2
      let dr3 := wa2 (i - 3) * c (i - 1) k 3 + wa2 (i - 2) * c i k 3
      let di3 := wa2 (i - 3) * c i k 3 - wa2 (i - 2) * c (i - 1) k 3
      let cr2 := dr2 + dr3
      let ci2 := di2 + di3
      let tr2 := c (i - 1) k 1 + taur * cr2
      let ti2 := c i k 1 + taur * ci2
      let tr3 := taui * (di2 - di3)
      let ti3 := taui * (dr3 - dr2)
      [(h (i - 1) 1 k, c (i - 1) k 1 + cr2), (h i 1 k, c i k 1 + ci2),
        (h (i - 1) 3 k, tr2 + tr3), (h (ic - 1) 2 k, tr2 - tr3),
        (h i 3 k, ti2 + ti3), (h ic 2 k, ti3 - ti2)]))

/-- `radf4` (src/fftpack4.cc:3297-3411): the assignments to `ch`. -/
noncomputable def radf4 (ido l1 : ℕ) (cc wa1 wa2 wa3 : Buf) : List (ℕ × ℝ) :=
  let hsqt2 : ℝ := √2 / 2
  let c := fun i k j => cc (ccAt ido l1 i k j)
  let h := chAt ido 4
  (upTo 1 l1).flatMap (fun k =>
    let tr1 := c 1 k 2 + c 1 k 4
    let tr2 := c 1 k 1 + c 1 k 3
    [(h 1 1 k, tr1 + tr2), (h ido 4 k, tr2 - tr1),
      (h ido 2 k, c 1 k 1 - c 1 k 3), (h 1 3 k, c 1 k 4 - c 1 k 2)]) ++
  if ido < 2 then []
  else
    (if ido = 2 then [] else
      (upTo 1 l1).flatMap (fun k => (odds ido).flatMap (fun i =>
        let ic := ido + 2 - i
        let cr2 := wa1 (i - 3) * c (i - 1) k 2 + wa1 (i - 2) * c i k 2
        let ci2 := wa1 (i - 3) * c i k 2 - wa1 (i - 2) * c (i - 1) k 2
        let cr3 := wa2 (i - 3) * c (i - 1) k 3 + wa2 (i - 2) * c i k 3
        let ci3 := wa2 (i - 3) * c i k 3 - wa2 (i - 2) * c (i - 1) k 3
        let cr4 := wa3 (i - 3) * c (i - 1) k 4 + wa3 (i - 2) * c i k 4
        let ci4 := wa3 (i - 3) * c i k 4 - wa3 (i - 2) * c (i - 1) k 4
        let tr1 := cr2 + cr4
        let tr4 := cr4 - cr2
        let ti1 := ci2 + ci4
        let ti4 := ci2 - ci4
        let ti2 := c i k 1 + ci3
        let ti3 := c i k 1 - ci3
        let tr2 := c (i - 1) k 1 + cr3
        let tr3 := c (i - 1) k 1 - cr3
        [(h (i - 1) 1 k, tr1 + tr2), (h (ic - 1) 4 k, tr2 - tr1),
          (h i 1 k, ti1 + ti2), (h ic 4 k, ti1 - ti2),
          (h (i - 1) 3 k, ti4 + tr3), (h (ic - 1) 2 k, tr3 - ti4),
          (h i 3 k, tr4 + ti3), (h ic 2 k, tr4 - ti3)]))) ++
    if ido ≠ 2 ∧ ido % 2 = 1 then []
    else (upTo 1 l1).flatMap (fun k =>
      let ti1 := -hsqt2 * (c ido k 2 + c ido k 4)
      let tr1 := hsqt2 * (c ido k 2 - c ido k 4)
      [(h ido 1 k, tr1 + c ido k 1), (h ido 3 k, c ido k 1 - tr1),
        (h 1 2 k, ti1 - c ido k 3), (h 1 4 k, ti1 + c ido k 3)])

/-- `radf5` (src/fftpack4.cc:3413-3533): the assignments to `ch`. -/
noncomputable def radf5 (ido l1 : ℕ) (cc wa1 wa2 wa3 wa4 : Buf) : List (ℕ × ℝ) :=
  let tr11 := Real.cos (2 * Real.pi / 5)
  let ti11 := Real.sin (2 * Real.pi / 5)
  let tr12 := Real.cos (4 * Real.pi / 5)
  let ti12 := Real.sin (4 * Real.pi / 5)
  let c := fun i k j => cc (ccAt ido l1 i k j)
  let h := chAt ido 5
  (upTo 1 l1).flatMap (fun k =>
    let cr2 := c 1 k 5 + c 1 k 2
    let ci5 := c 1 k 5 - c 1 k 2
    let cr3 := c 1 k 4 + c 1 k 3
    let ci4 := c 1 k 4 - c 1 k 3
    [(h 1 1 k, c 1 k 1 + cr2 + cr3), (h ido 2 k, c 1 k 1 + tr11 * cr2 + tr12 * cr3),
      (h 1 3 k, ti11 * ci5 + ti12 * ci4), (h ido 4 k, c 1 k 1 + tr12 * cr2 + tr11 * cr3),
      (h 1 5 k, ti12 * ci5 - ti11 * ci4)]) ++
  if ido = 1 then []
  else
    (upTo 1 l1).flatMap (fun k => (odds ido).flatMap (fun i =>
      let ic := ido + 2 - i
      let dr2 := wa1 (i - 3) * c (i - 1) k 2 + wa1 (i - 2) * c i k 2
      let di2 := wa1 (i - 3) * c i k 2 - wa1 (i - 2) * c (i - 1) k 2
      let dr3 := wa2 (i - 3) * c (i - 1) k 3 + wa2 (i - 2) * c i k 3
      let di3 := wa2 (i - 3) * c i k 3 - wa2 (i - 2) * c (i - 1) k 3
      let dr4 := wa3 (i - 3) * c (i - 1) k 4 + wa3 (i - 2) * c i k 4
      let di4 := wa3 (i - 3) * c i k 4 - wa3 (i - 2) * c (i - 1) k 4
      let dr5 := wa4 (i - 3) * c (i - 1) k 5 + wa4 (i - 2) * c i k 5
      let di5 := wa4 (i - 3) * c i k 5 - wa4 (i - 2) * c (i - 1) k 5
      let cr2 := dr2 + dr5
      let ci5 := dr5 - dr2
      let cr5 := di2 - di5
      let ci2 := di2 + di5
      let cr3 := dr3 + dr4
      let ci4 := dr4 - dr3
      let cr4 := di3 - di4
      let ci3 := di3 + di4
      let tr2 := c (i - 1) k 1 + tr11 * cr2 + tr12 * cr3
      let ti2 := c i k 1 + tr11 * ci2 + tr12 * ci3
      let tr3 := c (i - 1) k 1 + tr12 * cr2 + tr11 * cr3
      let ti3 := c i k 1 + tr12 * ci2 + tr11 * ci3
      let tr5 := ti11 * cr5 + ti12 * cr4
      let ti5 := ti11 * ci5 + ti12 * ci4
      let tr4 := ti12 * cr5 - ti11 * cr4
      let ti4 := ti12 * ci5 - ti11 * ci4
      [(h (i - 1) 1 k, c (i - 1) k 1 + cr2 + cr3), (h i 1 k, c i k 1 + ci2 + ci3),
        (h (i - 1) 3 k, tr2 + tr5), (h (ic - 1) 2 k, tr2 - tr5),
        (h i 3 k, ti2 + ti5), (h ic 2 k, ti5 - ti2),
        (h (i - 1) 5 k, tr3 + tr4), (h (ic - 1) 4 k, tr3 - tr4),
        (h i 5 k, ti3 + ti4), (h ic 4 k, ti4 - ti3)]))

/-! ## The pass for other factors

The arrays `cc`, `c1` and `c2` of `radfg` are the same, `ch` and `ch2` are the same
(src/fftpack4.cc:4122-4128). -/

/-- The order of the loops over `k` and `i` inside `radfg` (src/fftpack4.cc:3611-3625 and 3634-3649, for instance). -/
def twoLoops (kFirst : Bool) (l1 ido : ℕ) (body : ℕ → ℕ → List (ℕ × ℝ)) : List (ℕ × ℝ) :=
  if kFirst then (upTo 1 l1).flatMap (fun k => (odds ido).flatMap (fun i => body k i))
  else (odds ido).flatMap (fun i => (upTo 1 l1).flatMap (fun k => body k i))

/-- The assignments to `ch` at the beginning of `radfg` if `*ido` is not 1
(src/fftpack4.cc:3585-3651). -/
def fgTwiddle (ido ip l1 : ℕ) (c wa : Buf) : List (ℕ × ℝ) :=
  let at_ := ccAt ido l1
  (List.range (ido * l1)).map (fun ik => (ik, c ik)) ++
  (upTo 2 ip).flatMap (fun j => (upTo 1 l1).map (fun k => (at_ 1 k j, c (at_ 1 k j)))) ++
  (upTo 2 ip).flatMap (fun j =>
    twoLoops (decide (l1 < (ido - 1) / 2)) l1 ido (fun k i =>
      let w := (j - 2) * ido + (i - 3)
      [(at_ (i - 1) k j, wa w * c (at_ (i - 1) k j) + wa (w + 1) * c (at_ i k j)),
        (at_ i k j, wa w * c (at_ i k j) - wa (w + 1) * c (at_ (i - 1) k j))]))

/-- The assignments to `c1` after that (src/fftpack4.cc:3652-3708). -/
def fgFold (ido ip l1 : ℕ) (h : Buf) : List (ℕ × ℝ) :=
  let at_ := ccAt ido l1
  (upTo 2 ((ip + 1) / 2)).flatMap (fun j =>
    let jc := ip + 2 - j
    twoLoops (decide (l1 ≤ (ido - 1) / 2)) l1 ido (fun k i =>
      [(at_ (i - 1) k j, h (at_ (i - 1) k j) + h (at_ (i - 1) k jc)),
        (at_ (i - 1) k jc, h (at_ i k j) - h (at_ i k jc)),
        (at_ i k j, h (at_ i k j) + h (at_ i k jc)),
        (at_ i k jc, h (at_ (i - 1) k jc) - h (at_ (i - 1) k j))]))

/-- The assignment to `c2` if it is 1 (src/fftpack4.cc:3709-3714). -/
def fgCopy (idl1 : ℕ) (h : Buf) : List (ℕ × ℝ) := (List.range idl1).map (fun ik => (ik, h ik))

/-- The assignments to `c1` after that (src/fftpack4.cc:3715-3728). -/
def fgFoldFirst (ido ip l1 : ℕ) (h : Buf) : List (ℕ × ℝ) :=
  let at_ := ccAt ido l1
  (upTo 2 ((ip + 1) / 2)).flatMap (fun j =>
    let jc := ip + 2 - j
    (upTo 1 l1).flatMap (fun k =>
      [(at_ 1 k j, h (at_ 1 k j) + h (at_ 1 k jc)),
        (at_ 1 k jc, h (at_ 1 k jc) - h (at_ 1 k j))]))

/-- The body of the loop over `j` (src/fftpack4.cc:3750-3762); the numbers are `ar2` and
`ai2`. -/
noncomputable def fgSumInner (cap idl1 ip l : ℕ) (c : Buf) (dc2 ds2 : ℝ) :
    Buf × ℝ × ℝ → ℕ → Res (Buf × ℝ × ℝ) :=
  fun (h, ar2, ai2) j =>
    let lc := ip + 2 - l
    let jc := ip + 2 - j
    let ar2h := dc2 * ar2 - ds2 * ai2
    let ai2 := dc2 * ai2 + ds2 * ar2
    let ar2 := ar2h
    match add cap h ((List.range idl1).flatMap (fun ik =>
        [(ik + idl1 * (l - 1), ar2 * c (ik + idl1 * (j - 1))),
          (ik + idl1 * (lc - 1), ai2 * c (ik + idl1 * (jc - 1)))])) with
    | .error e => .error e
    | .ok h => .ok (h, ar2, ai2)

/-- The body of the loop over `l` (src/fftpack4.cc:3733-3764); the numbers are `ar1` and
`ai1`. -/
noncomputable def fgSum (cap idl1 ip : ℕ) (c : Buf) (dcp dsp : ℝ) :
    Buf × ℝ × ℝ → ℕ → Res (Buf × ℝ × ℝ) :=
  fun (h, ar1, ai1) l =>
    let lc := ip + 2 - l
    let ar1h := dcp * ar1 - dsp * ai1
    let ai1 := dcp * ai1 + dsp * ar1
    let ar1 := ar1h
    match put cap h ((List.range idl1).flatMap (fun ik =>
        [(ik + idl1 * (l - 1), c ik + ar1 * c (ik + idl1)),
          (ik + idl1 * (lc - 1), ai1 * c (ik + idl1 * (ip - 1)))])) with
    | .error e => .error e
    | .ok h =>
      match loop (fgSumInner cap idl1 ip l c ar1 ai1) (h, ar1, ai1)
          (upTo 3 ((ip + 1) / 2)) with
      | .error e => .error e
      | .ok (h, _, _) => .ok (h, ar1, ai1)

/-- The sums for the first plane (src/fftpack4.cc:3765-3773). -/
def fgSumFirst (idl1 ip : ℕ) (c : Buf) : List (ℕ × ℝ) :=
  (upTo 2 ((ip + 1) / 2)).flatMap (fun j =>
    (List.range idl1).map (fun ik => (ik, c (ik + idl1 * (j - 1)))))

/-- The assignments to `cc` at the end (src/fftpack4.cc:3775-3876). -/
def fgOut (ido ip l1 : ℕ) (h : Buf) : List (ℕ × ℝ) :=
  let at_ := ccAt ido l1
  let cc_ := chAt ido ip
  (if ido < l1 then
      (upTo 1 ido).flatMap (fun i => (upTo 1 l1).map (fun k => (cc_ i 1 k, h (at_ i k 1))))
    else (upTo 1 l1).flatMap (fun k => (upTo 1 ido).map (fun i => (cc_ i 1 k, h (at_ i k 1))))) ++
  (upTo 2 ((ip + 1) / 2)).flatMap (fun j =>
    let jc := ip + 2 - j
    let j2 := j + j
    (upTo 1 l1).flatMap (fun k =>
      [(cc_ ido (j2 - 2) k, h (at_ 1 k j)), (cc_ 1 (j2 - 1) k, h (at_ 1 k jc))])) ++
  if ido = 1 then []
  else
    (upTo 2 ((ip + 1) / 2)).flatMap (fun j =>
      let jc := ip + 2 - j
      let j2 := j + j
      twoLoops (decide (l1 ≤ (ido - 1) / 2)) l1 ido (fun k i =>
        let ic := ido + 2 - i
        [(cc_ (i - 1) (j2 - 1) k, h (at_ (i - 1) k j) + h (at_ (i - 1) k jc)),
          (cc_ (ic - 1) (j2 - 2) k, h (at_ (i - 1) k j) - h (at_ (i - 1) k jc)),
          (cc_ i (j2 - 1) k, h (at_ i k j) + h (at_ i k jc)),
          (cc_ ic (j2 - 2) k, h (at_ i k jc) - h (at_ i k j))]))

/-- The first part of the pass (src/fftpack4.cc:3577-3728): the arrays `cc` and `ch`. -/
def fgBegin (cap ido ip l1 : ℕ) (c h wa : Buf) : Res (Buf × Buf) :=
  match (if ido = 1 then
      match put cap c (fgCopy (ido * l1) h) with
      | .error e => .error e
      | .ok c => .ok (c, h)
    else
      match put cap h (fgTwiddle ido ip l1 c wa) with
      | .error e => .error e
      | .ok h => match put cap c (fgFold ido ip l1 h) with
        | .error e => .error e
        | .ok c => .ok (c, h) : Res (Buf × Buf)) with
  | .error e => .error e
  | .ok (c, h) => match put cap c (fgFoldFirst ido ip l1 h) with
    | .error e => .error e
    | .ok c => .ok (c, h)

/-- The second part (src/fftpack4.cc:3730-3773): the array `ch`. -/
noncomputable def fgMiddle (cap ido ip l1 : ℕ) (c h : Buf) : Res Buf :=
  let arg := 2 * Real.pi / (ip : ℝ)
  let idl1 := ido * l1
  match loop (fgSum cap idl1 ip c (Real.cos arg) (Real.sin arg)) (h, 1, 0)
      (upTo 2 ((ip + 1) / 2)) with
  | .error e => .error e
  | .ok (h, _, _) => add cap h (fgSumFirst idl1 ip c)

/-- `radfg` (src/fftpack4.cc:3535-3878): the arrays `cc` and `ch`. -/
noncomputable def radfg (cap ido ip l1 : ℕ) (c h wa : Buf) : Res (Buf × Buf) :=
  match fgBegin cap ido ip l1 c h wa with
  | .error e => .error e
  | .ok (c, h) => match fgMiddle cap ido ip l1 c h with
    | .error e => .error e
    | .ok h => match put cap c (fgOut ido ip l1 h) with
      | .error e => .error e
      | .ok c => .ok (c, h)

/-! ## The Fourier transform -/

/-- The variables of `rfftf1` (src/fftpack4.cc:4031-4050). -/
structure St where
  c : Buf
  h : Buf
  na : ℕ
  l2 : ℕ
  iw : ℕ

/-- A pass from one array to the other (src/fftpack4.cc:4065-4071, for instance). -/
def exchange (n na l1 iw : ℕ) (s : St) (ws : Buf → List (ℕ × ℝ)) : Res St :=
  if na ≠ 0 then
    match put n s.c (ws s.h) with
    | .error e => .error e
    | .ok c => .ok ⟨c, s.h, na, l1, iw⟩
  else
    match put n s.h (ws s.c) with
    | .error e => .error e
    | .ok h => .ok ⟨s.c, h, na, l1, iw⟩

/-- The body of the loop of `rfftf1` (src/fftpack4.cc:4053-4131). -/
noncomputable def pass (n : ℕ) (wa : Buf) (s : St) (ip : ℕ) : Res St :=
  let l1 := s.l2 / ip
  let ido := n / s.l2
  let iw := s.iw - (ip - 1) * ido
  let na := 1 - s.na
  let w := fun j => from_ wa (iw - 1 + j * ido)
  if ip = 4 then exchange n na l1 iw s (fun b => radf4 ido l1 b (w 0) (w 1) (w 2))
  else if ip = 2 then exchange n na l1 iw s (fun b => radf2 ido l1 b (w 0))
  else if ip = 3 then exchange n na l1 iw s (fun b => radf3 ido l1 b (w 0) (w 1))
  else if ip = 5 then exchange n na l1 iw s (fun b => radf5 ido l1 b (w 0) (w 1) (w 2) (w 3))
  else
    let na := if ido = 1 then 1 - na else na
    if na ≠ 0 then
      match radfg n ido ip l1 s.h s.c (w 0) with
      | .error e => .error e
      | .ok (h, c) => .ok ⟨c, h, 0, l1, iw⟩
    else
      match radfg n ido ip l1 s.c s.h (w 0) with
      | .error e => .error e
      | .ok (c, h) => .ok ⟨c, h, 1, l1, iw⟩

/-- `rfftf1` (src/fftpack4.cc:4031-4143) for the factors `fs`: the arrays `c` and `ch`. -/
noncomputable def rfftf1 (n : ℕ) (c ch wa : Buf) (fs : List ℕ) : Res (Buf × Buf) :=
  match loop (pass n wa) ⟨c, ch, 1, n, n⟩ fs.reverse with
  | .error e => .error e
  | .ok s =>
    if s.na = 1 then .ok (s.c, s.h)
    else match put n s.c ((List.range n).map (fun i => (i, s.h i))) with
      | .error e => .error e
      | .ok c => .ok (c, s.h)

/-- The number that is tried as a factor (src/fftpack4.cc:4187-4199) when `j` is the count of
tries. -/
def trial (j : ℕ) : ℕ :=
  if j = 1 then 4 else if j = 2 then 2 else if j = 3 then 3 else if j = 4 then 5
  else 5 + 2 * (j - 4)

/-- The search for factors (src/fftpack4.cc:4184-4228); `none`: the search did not come to an end in
`fuel` steps.  The factors are `ifac[3]` and the following entries; a factor 2 goes to the
front. -/
def factorLoop : ℕ → ℕ → ℕ → List ℕ → Option (List ℕ)
  | 0, _, _, _ => none
  | fuel + 1, nl, j, fs =>
    let ntry := trial j
    let nq := nl / ntry
    let nr := nl - ntry * nq
    if nr ≠ 0 then factorLoop fuel nl (j + 1) fs
    else
      let fs := if ntry = 2 then 2 :: fs else fs ++ [ntry]
      if nq ≠ 1 then factorLoop fuel nq j fs else some fs

/-- The factors of `n` in the order of `ifac` (src/fftpack4.cc:4184-4228). -/
def factors (n : ℕ) : Option (List ℕ) := factorLoop (2 * n + 8) n 1 []

/-- The assignments of `rffti1` to `wa` (src/fftpack4.cc:4231-4266) for the factors; the last factor
needs no entries. -/
noncomputable def twiddles (n : ℕ) : ℕ → ℕ → List ℕ → List (ℕ × ℝ)
  | _, _, [] => []
  | _, _, [_] => []
  | is, l1, ip :: fs =>
    let ido := n / (l1 * ip)
    (upTo 1 (ip - 1)).flatMap (fun j =>
      let argld := ((j * l1 : ℕ) : ℝ) * (2 * Real.pi / (n : ℝ))
      (List.range ((ido - 1) / 2)).flatMap (fun q =>
        let i := is + (j - 1) * ido + 2 * q
        [(i, Real.cos (((q + 1 : ℕ) : ℝ) * argld)),
          (i + 1, Real.sin (((q + 1 : ℕ) : ℝ) * argld))])) ++
    twiddles n (is + (ip - 1) * ido) (l1 * ip) fs

/-! ## The cosine transform -/

/-- The assignments of `costi` to the first part of `wsave` (src/fftpack4.cc:859-871) for a
vector of `n` entries. -/
noncomputable def costTable (n : ℕ) : List (ℕ × ℝ) :=
  (upTo 2 (n / 2)).flatMap (fun k =>
    let kc := n + 1 - k
    let t := ((k - 1 : ℕ) : ℝ) * (Real.pi / ((n - 1 : ℕ) : ℝ))
    [(k - 1, Real.sin t * 2), (kc - 1, Real.cos t * 2)])

/-- The body of the first loop of `cost` (src/fftpack4.cc:804-813); the number is `c1`. -/
noncomputable def costFold (n : ℕ) (w : Buf) : Buf × ℝ → ℕ → Buf × ℝ :=
  fun (x, c1) k =>
    let kc := n + 1 - k
    let t1 := x (k - 1) + x (kc - 1)
    let t2 := x (k - 1) - x (kc - 1)
    let c1 := c1 + w (kc - 1) * t2
    let t2 := w (k - 1) * t2
    (store x [(k - 1, t1 - t2), (kc - 1, t1 + t2)], c1)

/-- The body of the last loop of `cost` (src/fftpack4.cc:822-828), `i` being 4, 6, …; the number is `xim2`. -/
noncomputable def costUnfold : Buf × ℝ → ℕ → Buf × ℝ :=
  fun (x, xim2) i =>
    let xi := x (i - 1)
    (store x [(i - 1, x (i - 3) - x (i - 2)), (i - 2, xim2)], xi)

/-- `costi` and `cost` (src/fftpack4.cc:752-874) called one after the other, as the
interpolation does (src/ChebyshevInterpolatingFunction.cc:70-75, 157-164), for a vector of `n`
entries.  The array `ifac` has `cap` entries; `wsave` has at least three times as many as the
vector. -/
noncomputable def cost (cap n : ℕ) (wsave ch wa x : Buf) : Res Buf :=
  if n < 2 then .ok x
  else if n = 2 then .ok (store x [(1, x 0 - x 1), (0, x 0 + x 1)])
  else if n = 3 then
    let x1p3 := x 0 + x 2
    let tx2 := x 1 + x 1
    .ok (store x [(1, x 0 - x 2), (0, x1p3 + tx2), (2, x1p3 - tx2)])
  else
    match factors (n - 1) with
    | none => .error .ub
    | some fs =>
      if cap < fs.length + 2 then .error .ub
      else
        match put n wsave (costTable n), put (n - 1) wa (twiddles (n - 1) 0 1 fs) with
        | .ok w, .ok wa =>
          let x0 := store x [(0, x 0 + x (n - 1))]
          let r := (upTo 2 (n / 2)).foldl (costFold n w) (x0, x 0 - x (n - 1))
          let x1 := if n % 2 ≠ 0 then store r.1 [(n / 2, r.1 (n / 2) + r.1 (n / 2))] else r.1
          match rfftf1 (n - 1) x1 ch wa fs with
          | .error e => .error e
          | .ok (x2, _) =>
            let u := ((List.range (n / 2 - 1)).map (fun q => 2 * q + 4)).foldl costUnfold
              (store x2 [(1, r.2)], x2 1)
            .ok (if n % 2 ≠ 0 then store u.1 [(n - 1, u.2)] else u.1)
        | _, _ => .error .ub

/-- The transform as the interpolation calls it (src/ChebyshevInterpolatingFunction.cc:70-75, 157-164):
`ifac` has half as many entries as the vector, and the arrays hold zeros. -/
noncomputable def costVec (x : List ℝ) : Res (List ℝ) :=
  match cost (x.length / 2) x.length 0 0 0 (fun i => x.getD i 0) with
  | .error e => .error e
  | .ok b => .ok ((List.range x.length).map b)

end Marley.Fft
