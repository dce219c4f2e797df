import Verif.Spec.EventPrograms
import Verif.Props.RootOutput
import Mathlib.Tactic.FinCases

/-!
# Properties of the programs that read event files (C108)
-/

set_option autoImplicit false

namespace Marley.Props
open Marley Marley.Json Marley.Out Marley.RootOut Marley.Rdr Marley.Prog

variable {K σ : Type}

/-! ## Reading in a loop -/

/-- From here on the reader gives the events of the book, and ends with `fin`. -/
def Ahead [DivisionRing K] (F : TextFmt K) (ofLong : Int → K) (R : RootIO K) (d : OnDisk) (s : RootReader K)
    (b : Book K) (fin : Option Fail) (P : List Op → Prop) : Prop :=
  ∀ ops : List Op, P ops →
    (ops.count .next ≤ b.rest.length → (answersRoot F ofLong R d s ops).1 = expected b ops) ∧
    (ops.count .next = b.rest.length →
      (fin = none → (answersRoot F ofLong R d s (ops ++ [.next, .good])).1 = expected b (ops ++ [.next, .good])) ∧
      ∀ x, fin = some x → (answersRoot F ofLong R d s (ops ++ [.next])).1 = expected b ops ++ [.fail x])

/-- Sequences that begin with `next`. -/
def NextFirst (ops : List Op) : Prop := ops = [] ∨ ops.head? = some .next

theorem Ahead.weaken [DivisionRing K] {F : TextFmt K} {ofLong : Int → K} {R : RootIO K} {d : OnDisk}
    {s : RootReader K} {b : Book K} {fin : Option Fail} (h : Ahead F ofLong R d s b fin (fun _ => True)) :
    Ahead F ofLong R d s b fin NextFirst := fun ops _ => h ops trivial

theorem ahead_next [DivisionRing K] {F : TextFmt K} {ofLong : Int → K} {R : RootIO K} {d : OnDisk}
    {s : RootReader K} {b : Book K} {fin : Option Fail} (h : Ahead F ofLong R d s b fin NextFirst)
    {e : Event K} {x : K} {t : List (Event K × K)} (hr : b.rest = (e, x) :: t) :
    ∃ s1, nextRoot F ofLong R d s = (s1, .ok (true, e)) ∧
      Ahead F ofLong R d s1 { b with rest := t, shown := x } fin (fun _ => True) := by
  have key : (askRoot F ofLong R d s .next).2 = .event true e := by
    have := (h [.next] (.inr rfl)).1 (by rw [hr]; simp)
    rw [expected] at this
    simp only [hr, answersRoot, List.cons.injEq] at this
    exact this.1
  have hn : ∃ s1, nextRoot F ofLong R d s = (s1, .ok (true, e)) ∧ askRoot F ofLong R d s .next = (s1, .event true e) := by
    simp only [askRoot] at key ⊢
    rcases hx : nextRoot F ofLong R d s with ⟨s1, f | ⟨m, e'⟩⟩
    · rw [hx] at key; cases key
    · rw [hx] at key; cases key; exact ⟨s1, rfl, rfl⟩
  obtain ⟨s1, h1, h2⟩ := hn
  refine ⟨s1, h1, ?_⟩
  intro ops _
  obtain ⟨ha, hb⟩ := h (.next :: ops) (.inr rfl)
  have hlen : b.rest.length = t.length + 1 := by rw [hr]; rfl
  have hcount : (Op.next :: ops).count .next = ops.count .next + 1 := by simp
  refine ⟨fun hc => ?_, fun hc => ⟨fun hf => ?_, fun x hf => ?_⟩⟩
  · have := ha (by rw [hcount, hlen]; simpa using hc)
    rw [expected] at this
    simp only [hr, answersRoot, h2, List.cons.injEq] at this
    exact this.2
  · have := (hb (by rw [hcount, hlen]; simpa using hc)).1 hf
    rw [List.cons_append, expected] at this
    simp only [hr, answersRoot, h2, List.cons.injEq] at this
    exact this.2
  · have := (hb (by rw [hcount, hlen]; simpa using hc)).2 x hf
    rw [List.cons_append, expected] at this
    simp only [hr, answersRoot, h2, List.cons_append, List.cons.injEq] at this
    exact this.2

theorem ahead_good [DivisionRing K] {F : TextFmt K} {ofLong : Int → K} {R : RootIO K} {d : OnDisk}
    {s : RootReader K} {b : Book K} {fin : Option Fail} (h : Ahead F ofLong R d s b fin (fun _ => True)) :
    goodRoot s = .ok (!b.ended) := by
  have := (h [.good] trivial).1 (by simp)
  simp only [answersRoot, expected, List.cons.injEq, and_true, askRoot] at this
  rcases hg : goodRoot s with x | v
  · rw [hg] at this; cases this
  · rw [hg] at this; cases this; rfl

theorem ahead_flux [DivisionRing K] {F : TextFmt K} {ofLong : Int → K} {R : RootIO K} {d : OnDisk}
    {s : RootReader K} {b : Book K} {fin : Option Fail} (h : Ahead F ofLong R d s b fin (fun _ => True)) :
    ∃ s1, fluxRoot F ofLong R d false s = (s1, .ok (b.shown * squareInverseMeV)) ∧
      Ahead F ofLong R d s1 b fin (fun _ => True) := by
  have key := (h [.flux false] trivial).1 (by simp)
  simp only [answersRoot, expected, List.cons.injEq, and_true, Bool.false_eq_true, if_false] at key
  have hn : ∃ s1, fluxRoot F ofLong R d false s = (s1, .ok (b.shown * squareInverseMeV)) ∧
      askRoot F ofLong R d s (.flux false) = (s1, .xsec (b.shown * squareInverseMeV)) := by
    simp only [askRoot] at key ⊢
    rcases hx : fluxRoot F ofLong R d false s with ⟨s1, f | v⟩
    · rw [hx] at key; cases key
    · rw [hx] at key; cases key; exact ⟨s1, rfl, rfl⟩
  obtain ⟨s1, h1, h2⟩ := hn
  refine ⟨s1, h1, ?_⟩
  intro ops _
  obtain ⟨ha, hb⟩ := h (.flux false :: ops) trivial
  have hcount : (Op.flux false :: ops).count .next = ops.count .next := by simp
  refine ⟨fun hc => ?_, fun hc => ⟨fun hf => ?_, fun x hf => ?_⟩⟩
  · have := ha (by rw [hcount]; exact hc)
    simp only [expected, answersRoot, h2, List.cons.injEq] at this
    exact this.2
  · have := (hb (by rw [hcount]; exact hc)).1 hf
    simp only [List.cons_append, expected, answersRoot, h2, List.cons.injEq] at this
    exact this.2
  · have := (hb (by rw [hcount]; exact hc)).2 x hf
    simp only [List.cons_append, expected, answersRoot, h2, List.cons.injEq] at this
    exact this.2

/-- The end of a file. -/
theorem ahead_end [DivisionRing K] {F : TextFmt K} {ofLong : Int → K} {R : RootIO K} {d : OnDisk}
    {s : RootReader K} {b : Book K} {fin : Option Fail} (h : Ahead F ofLong R d s b fin NextFirst)
    (hr : b.rest = []) :
    (fin = none → ∃ s1, nextRoot F ofLong R d s = (s1, .ok (false, blankEvent)) ∧ goodRoot s1 = .ok false) ∧
    ∀ x, fin = some x → ∃ s1, nextRoot F ofLong R d s = (s1, .error x) := by
  obtain ⟨-, hb⟩ := h [] (.inl rfl)
  obtain ⟨h1, h2⟩ := hb (by rw [hr]; rfl)
  constructor
  · intro hf
    have := h1 hf
    simp only [List.nil_append, expected, answersRoot, hr, List.cons.injEq, and_true, Bool.not_true] at this
    obtain ⟨k1, k2⟩ := this
    simp only [askRoot] at k1 k2
    rcases hx : nextRoot F ofLong R d s with ⟨s1, f | ⟨m, e'⟩⟩
    · rw [hx] at k1; cases k1
    · rw [hx] at k1 k2
      cases k1
      refine ⟨s1, rfl, ?_⟩
      dsimp only at k2
      rcases hg : goodRoot s1 with x | v
      · rw [hg] at k2; cases k2
      · rw [hg] at k2; cases k2; rfl
  · intro x hf
    have := h2 x hf
    simp only [List.nil_append, expected, answersRoot, List.cons.injEq, and_true] at this
    simp only [askRoot] at this
    rcases hx : nextRoot F ofLong R d s with ⟨s1, f | ⟨m, e'⟩⟩
    · rw [hx] at this; cases this; exact ⟨s1, rfl⟩
    · rw [hx] at this; cases this

/-- What a loop must compute: one step for each event, in order. -/
def through (step : Event K × K → σ → Except Fail σ) (fin : Option Fail) : List (Event K × K) → σ → Except Fail σ
  | [], v => match fin with | none => .ok v | some x => .error x
  | p :: l, v =>
    match step p v with
    | .error x => .error x
    | .ok v => through step fin l v

/-- A body of the loop that makes a given step and leaves the reader in order. -/
def Makes [DivisionRing K] (F : TextFmt K) (ofLong : Int → K) (R : RootIO K) (d : OnDisk)
    (body : RootReader K → Event K → σ → RootReader K × Except Fail σ) (step : Event K × K → σ → Except Fail σ) :
    Prop :=
  ∀ s b fin e v, Ahead F ofLong R d s b fin (fun _ => True) → (body s e v).2 = step (e, b.shown) v ∧
    Ahead F ofLong R d (body s e v).1 b fin (fun _ => True)

theorem readLoop_through [DivisionRing K] {F : TextFmt K} {ofLong : Int → K} {R : RootIO K} {d : OnDisk}
    {body : RootReader K → Event K → σ → RootReader K × Except Fail σ} {step : Event K × K → σ → Except Fail σ}
    (hm : Makes F ofLong R d body step) (fin : Option Fail) (l : List (Event K × K)) (s : RootReader K) (b : Book K)
    (v : σ) (hr : b.rest = l) (he : b.ended = false) (h : Ahead F ofLong R d s b fin NextFirst) (fuel : Nat)
    (hfuel : l.length < fuel) :
    ∃ s1, readLoop F ofLong R d body fuel s v = some (s1, through step fin l v) := by
  induction l generalizing s b v fuel with
  | nil =>
    obtain ⟨n, rfl⟩ : ∃ n, fuel = n + 1 := ⟨fuel - 1, by omega⟩
    obtain ⟨h1, h2⟩ := ahead_end h hr
    rw [readLoop]
    cases hf : fin with
    | none =>
      obtain ⟨s1, h3, h4⟩ := h1 hf
      exact ⟨s1, by simp only [h3, h4, through]⟩
    | some x =>
      obtain ⟨s1, h3⟩ := h2 x hf
      exact ⟨s1, by simp only [h3, through]⟩
  | cons p l ih =>
    obtain ⟨e, x⟩ := p
    obtain ⟨n, rfl⟩ : ∃ n, fuel = n + 1 := ⟨fuel - 1, by omega⟩
    obtain ⟨s1, h1, h2⟩ := ahead_next h hr
    have h3 := ahead_good h2
    simp only [he, Bool.not_false] at h3
    obtain ⟨h4, h5⟩ := hm s1 _ fin e v h2
    dsimp only at h4
    rw [readLoop]
    simp only [h1, h3, through]
    rcases hb : body s1 e v with ⟨s2, f | v'⟩
    · rw [hb] at h4
      dsimp only at h4 ⊢
      rw [← h4]
      exact ⟨s2, rfl⟩
    · rw [hb] at h4 h5
      dsimp only at h4 h5 ⊢
      rw [← h4]
      exact ih s2 { b with rest := l, shown := x } v' rfl he h5.weaken n (by simp only [List.length_cons] at hfuel; omega)

/-- What a loop over files must compute. -/
def throughAll (step : Event K × K → σ → Except Fail σ) : List (Contents K) → σ → Except Fail σ
  | [], v => .ok v
  | c :: l, v =>
    match through step c.ending c.events v with
    | .error x => .error x
    | .ok v => throughAll step l v

theorem fileLoop_through [DivisionRing K] {F : TextFmt K} {ofLong : Int → K} {R : RootIO K} {disk : Str → OnDisk}
    {body : OnDisk → RootReader K → Event K → σ → RootReader K × Except Fail σ}
    {step : Event K × K → σ → Except Fail σ} (hm : ∀ d, Makes F ofLong R d (body d) step) (names : List Str)
    (cs : List (Contents K)) (h : List.Forall₂ (fun n c => Gives F ofLong R (disk n) c) names cs) (logging : Bool)
    (v : σ) (fuel : Nat) (hfuel : ∀ c ∈ cs, c.events.length < fuel) :
    fileLoop F ofLong R disk body fuel names logging v = some (throughAll step cs v) := by
  induction h generalizing logging v with
  | nil => rfl
  | @cons n c ns cs hn _ ih =>
    obtain ⟨b, h1, h2, h3⟩ := hn
    obtain ⟨s1, h4⟩ := readLoop_through (hm (disk n)) c.ending c.events (freshRoot logging) b v h1 h2
      (fun ops ho => by rw [h1]; exact h3 logging ops ho) fuel (hfuel c (by simp))
    rw [fileLoop, h4, throughAll]
    rcases through step c.ending c.events v with x | v'
    · rfl
    · exact ih s1.base.logging v' (fun c hc => hfuel c (by simp [hc]))

/-! ## marsum -/

theorem kinetic_eq [Field K] [LinearOrder K] [IsStrictOrderedRing K] (p : Particle K) : kinetic p = kineticEnergy p := by
  unfold kinetic kineticEnergy
  split
  · next h => exact max_eq_left (sub_nonneg.2 h)
  · next h => exact max_eq_right (by rw [sub_nonpos]; exact (not_le.1 h).le)

theorem products_eq [Field K] [LinearOrder K] [IsStrictOrderedRing K] (a b : List (Particle K)) (v : Products K) :
    products (a ++ b) a.length v = ⟨v.pdgs ++ b.map (·.pdg), v.es ++ b.map (·.E), v.kes ++ b.map kineticEnergy,
      v.pxs ++ b.map (·.px), v.pys ++ b.map (·.py), v.pzs ++ b.map (·.pz)⟩ := by
  induction b generalizing a v with
  | nil => rw [products, dif_neg (by simp)]; simp
  | cons p b ih =>
    rw [products, dif_pos (by simp)]
    have h : (a ++ p :: b)[a.length]'(by simp) = p := by simp
    simp only [h]
    have := ih (a ++ [p]) ⟨v.pdgs ++ [p.pdg], v.es ++ [p.E], v.kes ++ [kinetic p], v.pxs ++ [p.px], v.pys ++ [p.py],
      v.pzs ++ [p.pz]⟩
    rw [List.append_assoc, List.singleton_append, List.length_append, List.length_singleton] at this
    rw [this]
    simp [kinetic_eq]

/-- The step of `marsum`. -/
def sumStep [DivisionRing K] [LinearOrder K] (p : Event K × K) (rows : List (Row K)) : Except Fail (List (Row K)) :=
  match summary p with
  | some r => .ok (rows ++ [r])
  | none => .error (.exc .outOfRange)

theorem sumBody_makes [Field K] [LinearOrder K] [IsStrictOrderedRing K] (F : TextFmt K) (ofLong : Int → K)
    (R : RootIO K) (d : OnDisk) : Makes F ofLong R d (sumBody F ofLong R d) sumStep := by
  intro s b fin e rows h
  obtain ⟨s1, h1, h2⟩ := ahead_flux h
  obtain ⟨ini, fi, Ex, twoJ, par⟩ := e
  rcases ini with _ | ⟨v, _ | ⟨t, ini⟩⟩
  · exact ⟨rfl, h⟩
  · exact ⟨rfl, h⟩
  rcases fi with _ | ⟨l, _ | ⟨r, ps⟩⟩
  · exact ⟨rfl, h⟩
  · exact ⟨rfl, h⟩
  have hp := products_eq [l, r] ps ⟨[], [], [], [], [], []⟩
  have hb : sumBody F ofLong R d s ⟨v :: t :: ini, l :: r :: ps, Ex, twoJ, par⟩ rows =
      (s1, .ok (rows ++ [fillRow ⟨v :: t :: ini, l :: r :: ps, Ex, twoJ, par⟩ v t l r (b.shown * squareInverseMeV)])) := by
    simp only [sumBody, particleAt, List.getElem?_cons_zero, List.getElem?_cons_succ, h1]
  rw [hb]
  refine ⟨?_, h2⟩
  simp only [sumStep, summary]
  congr 3
  simp only [List.cons_append, List.nil_append, List.length_cons, List.length_nil] at hp
  simp only [fillRow, hp, kinetic_eq, List.length_cons, Nat.add_sub_cancel, List.take_length, Parity.toInt,
    ← List.length_map, List.nil_append]
  congr 1 <;> simp [List.take_of_length_le]

theorem through_sum [DivisionRing K] [LinearOrder K] (fin : Option Fail) (l : List (Event K × K)) (rows : List (Row K)) :
    through sumStep fin l rows = match l.mapM summary with
      | none => .error (.exc .outOfRange)
      | some rs => match fin with
        | some x => .error x
        | none => .ok (rows ++ rs) := by
  induction l generalizing rows with
  | nil => cases fin <;> simp [through]
  | cons p l ih =>
    rw [through, List.mapM_cons]
    rcases hp : summary p with _ | r
    · simp [sumStep, hp]
    · simp only [sumStep, hp, ih]
      rcases l.mapM summary with _ | rs
      · rfl
      · cases fin <;> simp

theorem throughAll_sum [DivisionRing K] [LinearOrder K] (cs : List (Contents K)) (rows : List (Row K)) :
    throughAll sumStep cs rows = (rowsOf cs).map (rows ++ ·) := by
  induction cs generalizing rows with
  | nil => simp [throughAll, rowsOf, Except.map]
  | cons c cs ih =>
    rw [throughAll, through_sum, rowsOf]
    rcases c.events.mapM summary with _ | rs
    · rfl
    · rcases c.ending with _ | x
      · simp only [ih]
        rcases rowsOf cs with x | r <;> simp [Except.map]
      · rfl

/-- **C108** (summary).  Given an output file that does not exist or that the user agrees to lose,
and any number of input files other than this one, `marsum` writes a tree that has exactly
one row for every event of the input files, in the order of the files and of the events in
them, and each row has the values of its event.  If a file cannot be read to its end, or an
event lacks one of the four particles of the reaction, an exception ends the program. -/
theorem C108_summary_partial [Field K] [LinearOrder K] [IsStrictOrderedRing K] (F : TextFmt K) (ofLong : Int → K)
    (R : RootIO K) (disk : Str → OnDisk) (input : List Str) (logging : Bool) (out : Str) (names : List Str)
    (hne : names ≠ []) (hout : out ∉ names) (hask : (disk out).text = none ∨ SaysYes input) (cs : List (Contents K))
    (h : List.Forall₂ (fun n c => Gives F ofLong R (disk n) c) names cs) :
    ∃ enough, ∀ fuel, enough ≤ fuel → marsum F ofLong R disk input logging fuel (out :: names) =
      some (match rowsOf cs with | .ok rows => .finished rows | .error x => .crashed x) := by
  obtain ⟨name, names, rfl⟩ : ∃ a l, names = a :: l := by
    cases names with
    | nil => exact absurd rfl hne
    | cons a l => exact ⟨a, l, rfl⟩
  refine ⟨(cs.map (fun c => c.events.length)).sum + 1, fun fuel hfuel => ?_⟩
  have hno : ¬ ((disk out).text.isSome ∧ promptYesNo input = false) := by
    rintro ⟨h1, h2⟩
    rcases hask with h3 | h3
    · rw [h3] at h1; cases h1
    · rw [(promptYesNo_iff input).2 h3] at h2; cases h2
  rw [marsum, if_neg hno]
  have h' : List.Forall₂ (fun n c => Gives F ofLong R
      ((fun n => if n = out then (⟨true, some (R.encode .empty)⟩ : OnDisk) else disk n) n) c) (name :: names) cs := by
    have hmem : ∀ n ∈ name :: names, n ≠ out := fun n hn e => hout (e ▸ hn)
    clear hfuel hout hne
    revert hmem
    generalize name :: names = l at h
    intro hmem
    induction h with
    | nil => exact .nil
    | cons hn _ ih =>
      refine .cons ?_ (ih (fun n hn => hmem n (by simp [hn])))
      dsimp only
      rw [if_neg (hmem _ (List.mem_cons_self ..))]
      exact hn
  have hl : ∀ c ∈ cs, c.events.length < fuel := by
    intro c hc
    have : c.events.length ≤ (cs.map (fun c => c.events.length)).sum :=
      List.single_le_sum (by simp) _ (List.mem_map.2 ⟨c, hc, rfl⟩)
    omega
  dsimp only
  rw [fileLoop_through (sumBody_makes F ofLong R) (name :: names) cs h' logging [] fuel hl, throughAll_sum]
  rcases rowsOf cs with x | r
  · rfl
  · simp [Except.map]

/-- **C108** (nothing is overwritten).  With fewer than two arguments, or if the output file
exists and the user does not agree, `marsum` reads and writes nothing. -/
theorem C108_refused [Field K] [LinearOrder K] (F : TextFmt K) (ofLong : Int → K) (R : RootIO K) (disk : Str → OnDisk)
    (input : List Str) (logging : Bool) (fuel : Nat) :
    (∀ args : List Str, args.length < 2 → marsum F ofLong R disk input logging fuel args = some .usage) ∧
    ∀ (out name : Str) (names : List Str), (disk out).text ≠ none → ¬ SaysYes input →
      marsum F ofLong R disk input logging fuel (out :: name :: names) = some .aborted := by
  constructor
  · intro args h
    rcases args with _ | ⟨a, _ | ⟨b, l⟩⟩
    · rfl
    · rfl
    · simp only [List.length_cons] at h; omega
  · intro out name names h1 h2
    have h3 : promptYesNo input = false := by
      rw [← Bool.not_eq_true, promptYesNo_iff]
      exact h2
    rw [marsum, if_pos ⟨Option.isSome_iff_ne_none.2 h1, h3⟩]

example (ofLong : Int → ℚ) (fuel : Nat) :
    marsum exText ofLong (exRoot true) (fun _ => ⟨true, some []⟩) [['x'], ['n'], ['y']] true fuel [['o'], ['a']] =
      some .aborted :=
  (C108_refused exText ofLong (exRoot true) _ _ true fuel).2 ['o'] ['a'] [] (by simp) (by
    rw [← promptYesNo_iff]; decide)

/-! ## The files -/

/-- Answers that are right for a book are those `Gives` asks for. -/
theorem gives_of_answers [DivisionRing K] {F : TextFmt K} {ofLong : Int → K} {R : RootIO K} {d : OnDisk} (b : Book K)
    (he : b.ended = false) (h : ∀ (logging : Bool) (ops : List Op), ops.head? ≠ some .good →
      ops.count .next ≤ b.rest.length + 1 →
      (answersRoot F ofLong R d (freshRoot logging) ops).1 = expected b ops) :
    Gives F ofLong R d ⟨b.rest, none⟩ := by
  refine ⟨b, rfl, he, fun logging ops ho => ⟨fun hc => ?_, fun hc => ⟨fun _ => ?_, ?_⟩⟩⟩
  · refine h logging ops ?_ (by dsimp only at hc; omega)
    rcases ho with rfl | ho
    · simp
    · rw [ho]; simp
  · refine h logging _ ?_ (by dsimp only at hc; simp [hc])
    rcases ho with rfl | ho
    · simp
    · cases ops with
      | nil => simp at ho
      | cons o l => simp at ho; subst ho; simp
  · intro x hx
    cases hx

/-- **C108** (text files).  A text file that the reader reads as C65 says can be given to these programs
as well. -/
theorem C108_text_file_partial [DivisionRing K] (F : TextFmt K) (ofLong : Int → K) (R : RootIO K) (text : Str)
    (b : Book K) (he : b.ended = false) (hR : R.decode text = none) (h : ReadsOnceAs F ofLong text b) :
    Gives F ofLong R ⟨true, some text⟩ ⟨b.rest, none⟩ :=
  gives_of_answers b he (fun logging ops h1 h2 => by
    rw [(C106_read_text F ofLong R ⟨true, some text⟩ hR logging ops).1]; exact h logging ops h1 h2)

/-- **C108** (ROOT files).  So can every ROOT file with an event tree and a cross section; by C106 every run of
`marley` leaves such files. -/
theorem C108_root_file_partial [Field K] (F : TextFmt K) (hf : F.dbl.Lawful) (ofLong : Int → K)
    {R : RootIO K} (hR : R.Lawful) (text : Str) (data : RootData K) (es : List (Event K)) (x : K)
    (hd : R.decode text = some data) (ht : data.tree = some es) (hx : data.flux = some x) :
    Gives F ofLong R ⟨true, some text⟩ ⟨es.map (fun e => (e, x)), none⟩ :=
  gives_of_answers (constantBook x es) rfl (fun logging ops h1 _ =>
    (C106_read_partial F hf ofLong hR text data es x hd ht hx logging ops h1).1)

/-- **C108** (files that cannot be read).  A reader that throws when it is opened ends the program
with that exception. -/
theorem C108_unreadable [DivisionRing K] (F : TextFmt K) (ofLong : Int → K) (R : RootIO K) (d : OnDisk) (x : Fail)
    (h : ∀ logging, (nextRoot F ofLong R d (freshRoot logging)).2 = .error x) :
    Gives F ofLong R d ⟨[], some x⟩ := by
  refine ⟨⟨[], 0, 0, false⟩, rfl, rfl, fun logging ops ho => ?_⟩
  have hnil : ops.count .next = 0 → ops = [] := by
    intro hc
    rcases ho with rfl | ho
    · rfl
    · cases ops with
      | nil => rfl
      | cons o l => simp at ho; subst ho; simp at hc
  refine ⟨fun hc => ?_, fun hc => ⟨nofun, fun y hy => ?_⟩⟩
  · rw [hnil (by dsimp only [List.length_nil] at hc; omega)]; rfl
  · rw [hnil (by simpa using hc)]
    cases hy
    simp only [List.nil_append, answersRoot, expected, askRoot]
    have := h logging
    rcases hx : nextRoot F ofLong R d (freshRoot logging) with ⟨s1, f | v⟩
    · rw [hx] at this; cases this; rfl
    · rw [hx] at this; cases this

/-- A file that does not exist. -/
theorem C108_missing [DivisionRing K] (F : TextFmt K) (ofLong : Int → K) (R : RootIO K) (d : OnDisk)
    (hd : d.found = false) : Gives F ofLong R d ⟨[], some (.exc .marleyError)⟩ := by
  apply C108_unreadable
  intro logging
  simp only [nextRoot, ensureRoot, freshRoot, fresh, deduceRoot, deduce, hd, if_true, Bool.false_eq_true, if_false]

/-- **C108** (the output file among the input files).  If the user agrees to overwrite the output file and
it is also the next input file, its events are lost: the program has emptied it before it tries to
read them, and ends with `marley::Error`. -/
theorem C108_self_violated [Field K] [LinearOrder K] [IsStrictOrderedRing K] (F : TextFmt K) (hf : F.dbl.Lawful)
    (ofLong : Int → K) {R : RootIO K} (hR : R.Lawful) (disk : Str → OnDisk) (input : List Str) (logging : Bool)
    (out : Str) (names : List Str) (hask : SaysYes input) (fuel : Nat) :
    marsum F ofLong R disk input logging (fuel + 1) (out :: out :: names) =
      some (.crashed (.exc .marleyError)) := by
  have hno : ¬ ((disk out).text.isSome ∧ promptYesNo input = false) := by
    rintro ⟨h1, h2⟩
    rw [(promptYesNo_iff input).2 hask] at h2; cases h2
  have hd : R.decode (R.encode .empty) = some .empty := hR.decode_encode _
  obtain ⟨r, h1, h2, h3⟩ := root_deduce hf hR hd logging
  have hn : ∃ s1, nextRoot F ofLong R ⟨true, some (R.encode .empty)⟩ (freshRoot logging) =
      (s1, .error (.exc .marleyError)) := by
    have he : ∃ s1, ensureRoot F ofLong R ⟨true, some (R.encode .empty)⟩ (freshRoot logging) =
        (s1, .error (.exc .marleyError)) := by
      rw [ensureRoot, if_neg (by simp [freshRoot, fresh]), h1]
      simp only [initRoot, h2, if_true, RootData.empty]
      exact ⟨_, rfl⟩
    obtain ⟨s1, he⟩ := he
    exact ⟨s1, by rw [nextRoot, he]⟩
  obtain ⟨s1, hn⟩ := hn
  rw [marsum, if_neg hno]
  simp only [fileLoop, if_true, readLoop, hn]

/-! ## marprint -/

theorem spinInfo_eq {twoJ : Int} (h : 0 ≤ twoJ) : spinInfo twoJ = spinText twoJ := by
  obtain ⟨n, rfl⟩ := Int.eq_ofNat_of_zero_le h
  unfold spinInfo spinText
  rw [Int.tmod_eq_emod_of_nonneg h, Int.tdiv_eq_ediv_of_nonneg h]
  by_cases h2 : (2 : Int) ∣ n
  · rw [if_neg (by omega), if_pos h2]
  · rw [if_pos (by omega), if_neg h2]; rfl

theorem title_eq : "\n*** Event ".toList = '\n' :: "*** Event ".toList := rfl

/-- The shape of the text about a particle. -/
theorem particle_shape (a1 a2 a3 b1 b2 b3 b4 c1 c2 c3 x1 x2 x3 x4 x5 x6 x7 : Str) :
    a1 ++ x1 ++ a2 ++ x2 ++ a3 ++ '\n' :: b1 ++ x3 ++ b2 ++ x4 ++ b3 ++ x5 ++ b4 ++ '\n' :: c1 ++ x6 ++ c2 ++ x7 ++
      c3 ++ ['\n'] =
    unlines [a1 ++ x1 ++ a2 ++ x2 ++ a3, b1 ++ x3 ++ b2 ++ x4 ++ b3 ++ x5 ++ b4, c1 ++ x6 ++ c2 ++ x7 ++ c3] := by
  simp [unlines]

theorem particleInfo_eq (num : K → Str) (p : Particle K) : particleInfo num p = unlines (particleLines num p) :=
  particle_shape _ _ _ _ _ _ _ _ _ _ _ _ _ _ _ _ _

theorem unlines_append (a b : List Str) : unlines (a ++ b) = unlines a ++ unlines b := by
  simp [unlines]

theorem unlines_flatMap {α : Type} (f : α → List Str) (l : List α) :
    unlines (l.flatMap f) = l.flatMap (fun a => unlines (f a)) := by
  induction l with
  | nil => rfl
  | cons a l ih => rw [List.flatMap_cons, unlines_append, ih, List.flatMap_cons]

/-- The shape of the text about an event. -/
theorem event_shape (a a1 a2 a3 a4 b1 b2 c d x1 x2 x3 x4 x5 : Str) (y : Char) (u v : List Str) (h : a = '\n' :: a1) :
    a ++ x1 ++ a2 ++ x2 ++ a3 ++ x3 ++ a4 ++ '\n' :: b1 ++ x4 ++ b2 ++ x5 ++ [y] ++ '\n' :: c ++ '\n' :: unlines u ++ d ++
      '\n' :: unlines v =
    unlines ([[], a1 ++ x1 ++ a2 ++ x2 ++ a3 ++ x3 ++ a4, b1 ++ x4 ++ b2 ++ x5 ++ [y], c] ++ u ++ [d] ++ v) := by
  rw [h]
  simp [unlines]

theorem eventInfo_eq (num : K → Str) (e : Event K) (n : Nat) (h : 0 ≤ e.twoJ) :
    eventInfo num e n = unlines (eventLines num e n) := by
  have hp : particleInfo num = fun p => unlines (particleLines num p) := funext (particleInfo_eq num)
  unfold eventInfo eventLines
  rw [hp, ← unlines_flatMap, ← unlines_flatMap, spinInfo_eq h]
  exact event_shape _ _ _ _ _ _ _ _ _ _ _ _ _ _ _ _ _ title_eq

/-- The step of `marprint`. -/
def printStep (num : K → Str) (p : Event K × K) (v : Str × Nat) : Except Fail (Str × Nat) :=
  .ok (v.1 ++ eventInfo num p.1 v.2, v.2 + 1)

theorem printBody_makes [DivisionRing K] (num : K → Str) (F : TextFmt K) (ofLong : Int → K) (R : RootIO K)
    (d : OnDisk) : Makes F ofLong R d (printBody num) (printStep num) := by
  intro s b fin e v h
  exact ⟨rfl, h⟩

theorem through_print (num : K → Str) (fin : Option Fail) (l : List (Event K × K)) (v : Str × Nat) :
    through (printStep num) fin l v = match fin with
      | some x => .error x
      | none => .ok (v.1 ++ ((l.map (·.1)).zipIdx v.2).flatMap (fun p => eventInfo num p.1 p.2), v.2 + l.length) := by
  induction l generalizing v with
  | nil => cases fin <;> simp [through]
  | cons p l ih =>
    simp only [through, printStep, ih]
    cases fin with
    | none => simp only [List.map_cons, List.zipIdx_cons, List.flatMap_cons, List.length_cons, List.append_assoc]; congr 2; omega
    | some x => rfl

theorem throughAll_print (num : K → Str) (cs : List (Contents K)) (v : Str × Nat) :
    throughAll (printStep num) cs v = (allEvents cs).map (fun es =>
      (v.1 ++ (es.zipIdx v.2).flatMap (fun p => eventInfo num p.1 p.2), v.2 + es.length)) := by
  induction cs generalizing v with
  | nil => simp [throughAll, allEvents, Except.map]
  | cons c cs ih =>
    rw [throughAll, through_print, allEvents]
    rcases c.ending with _ | x
    · simp only [ih]
      rcases allEvents cs with x | es
      · rfl
      · simp [Except.map, List.zipIdx_append, Nat.add_assoc]
    · rfl

/-- **C108** (printing).  The example program `marprint` prints, for any number of files, all events in
order, numbered from zero through all files, each with its numbers of particles, the excitation
energy, spin and parity of the residue, and all its particles.

Partial: for events whose spin is not negative (see `C108_spin_violated`). -/
theorem C108_print_partial [DivisionRing K] (num : K → Str) (F : TextFmt K) (ofLong : Int → K) (R : RootIO K)
    (disk : Str → OnDisk) (logging : Bool) (names : List Str) (cs : List (Contents K))
    (h : List.Forall₂ (fun n c => Gives F ofLong R (disk n) c) names cs)
    (hspin : ∀ c ∈ cs, ∀ p ∈ c.events, 0 ≤ p.1.twoJ) :
    ∃ enough, ∀ fuel, enough ≤ fuel → marprint num F ofLong R disk logging fuel names =
      some ((allEvents cs).map (fun es => es.zipIdx.flatMap (fun p => unlines (eventLines num p.1 p.2)))) := by
  refine ⟨(cs.map (fun c => c.events.length)).sum + 1, fun fuel hfuel => ?_⟩
  have hl : ∀ c ∈ cs, c.events.length < fuel := by
    intro c hc
    have : c.events.length ≤ (cs.map (fun c => c.events.length)).sum :=
      List.single_le_sum (by simp) _ (List.mem_map.2 ⟨c, hc, rfl⟩)
    omega
  rw [marprint, fileLoop_through (body := fun _ => printBody num) (printBody_makes num F ofLong R) names cs h logging _ fuel hl,
    throughAll_print]
  have hes : ∀ es, allEvents cs = .ok es → ∀ e ∈ es, 0 ≤ e.twoJ := by
    clear h hfuel hl
    induction cs with
    | nil => intro es h; cases h; simp
    | cons c cs ih =>
      intro es h e he
      rw [allEvents] at h
      rcases hc : c.ending with _ | x
      · rw [hc] at h
        rcases hm : allEvents cs with x | es'
        · rw [hm] at h; cases h
        · rw [hm] at h
          cases h
          rcases List.mem_append.1 he with he | he
          · obtain ⟨p, hp, rfl⟩ := List.mem_map.1 he
            exact hspin c (by simp) p hp
          · exact ih (fun c hc => hspin c (by simp [hc])) es' hm e he
      · rw [hc] at h; cases h
  rcases hm : allEvents cs with x | es
  · rfl
  · simp only [Except.map, Option.map_some, List.nil_append]
    have : es.zipIdx.flatMap (fun p => eventInfo num p.1 p.2) =
        es.zipIdx.flatMap (fun p => unlines (eventLines num p.1 p.2)) := List.flatMap_congr (fun p hp => ?_)
    · rw [this]
    exact eventInfo_eq num p.1 p.2 (hes es hm p.1 (List.fst_mem_of_mem_zipIdx hp))

/-- **C108 is violated** for a residue with negative half-integer spin (which an event file may contain,
although no nucleus has it): −1/2 is printed as 0. -/
theorem C108_spin_violated : spinInfo (-1) = ['0'] ∧ spinText (-1) = "-1/2".toList := by
  have h1 : natText 0 = ['0'] := by rw [natText]; rfl
  have h2 : natText 1 = ['1'] := by rw [natText]; rfl
  constructor
  · show natText 0 = ['0']
    exact h1
  · show ('-' :: natText 1) ++ ['/', '2'] = _
    rw [h2]; rfl

/-! ## A case -/

/-- A ROOT file with two events and a cross section under the name `a`, nothing elsewhere. -/
noncomputable def exDisk (n : Str) : OnDisk :=
  if n = ['a'] then ⟨true, some ((exRoot true).encode (exHolds twoEvents 2))⟩ else ⟨false, none⟩

/-- What is in it. -/
def exContents : Contents ℚ := ⟨twoEvents.map (fun e => (e, 3 / 2)), none⟩

theorem exDisk_gives (ofLong : Int → ℚ) : Gives exText ofLong (exRoot true) (exDisk ['a']) exContents :=
  C108_root_file_partial exText ratFmt_lawful ofLong (exRoot_lawful true) _ (exHolds twoEvents 2) twoEvents (3 / 2)
    ((exRoot_lawful true).decode_encode _) rfl rfl

/-- Two files, of which the second is the first again: four rows; and a file that is missing. -/
example (ofLong : Int → ℚ) : ∃ enough rows, (∀ fuel, enough ≤ fuel →
      marsum exText ofLong (exRoot true) exDisk [] true fuel [['o'], ['a'], ['a']] = some (.finished rows)) ∧
    rows.length = 4 ∧ rows.map (·.twoJ) = [0, 2, 0, 2] ∧ (∀ r ∈ rows, r.xsec = 3 / 2 * squareInverseMeV) ∧
    ∃ enough, ∀ fuel, enough ≤ fuel → marsum exText ofLong (exRoot true) exDisk [] true fuel [['o'], ['a'], ['b']] =
      some (.crashed (.exc .marleyError)) := by
  have h1 := C108_summary_partial exText ofLong (exRoot true) exDisk [] true ['o'] [['a'], ['a']] (by simp)
    (by decide) (.inl rfl) [exContents, exContents] (.cons (exDisk_gives _) (.cons (exDisk_gives _) .nil))
  have h2 := C108_summary_partial exText ofLong (exRoot true) exDisk [] true ['o'] [['a'], ['b']] (by simp)
    (by decide) (.inl rfl) [exContents, ⟨[], some (.exc .marleyError)⟩]
    (.cons (exDisk_gives _) (.cons (C108_missing _ _ _ _ rfl) .nil))
  obtain ⟨n, h1⟩ := h1
  refine ⟨n, _, h1, rfl, rfl, ?_, h2⟩
  intro r hr
  fin_cases hr <;> rfl

/-- All of this printed. -/
example (ofLong : Int → ℚ) (num : ℚ → Str) : ∃ enough text, ∀ fuel, enough ≤ fuel →
    marprint num exText ofLong (exRoot true) exDisk true fuel [['a'], ['a']] = some (.ok text) := by
  obtain ⟨n, h⟩ := C108_print_partial num exText ofLong (exRoot true) exDisk true [['a'], ['a']]
    [exContents, exContents] (.cons (exDisk_gives _) (.cons (exDisk_gives _) .nil)) (by decide)
  exact ⟨n, _, h⟩

example (ofLong : Int → ℚ) : SaysYes ["y".toList] ∧
    marsum exText ofLong (exRoot true) exDisk ["y".toList] true 1 [['a'], ['a']] =
      some (.crashed (.exc .marleyError)) := by
  have h : SaysYes ["y".toList] := ⟨[], ['y'], [], rfl, by simp, .inl rfl⟩
  exact ⟨h, C108_self_violated exText ratFmt_lawful ofLong (exRoot_lawful true) exDisk _ true ['a'] [] h 0⟩

end Marley.Props
