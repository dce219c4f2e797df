import Verif.Spec.Examples
import Verif.Props.EventReader
import Verif.Props.WholeEvent

/-!
# C114: the example programs for Geant4 and the minimal examples
-/

set_option autoImplicit false

namespace Marley.Props
open Marley Marley.Json Marley.Out Marley.Rdr Marley.Examples

variable {K γ : Type}

/-! ## C114 primaries -/

theorem primaryLoop_eq (l : List (Particle K)) (v : Vertex K) :
    primaryLoop l v = ⟨v.x, v.y, v.z, v.t0, v.primaries ++
      l.map (fun p => (⟨p.pdg, p.px, p.py, p.pz, p.E, p.charge⟩ : Primary K))⟩ := by
  induction l generalizing v with
  | nil => simp [primaryLoop]
  | cons p l ih => simp [primaryLoop, ih]

theorem hands_loop [Zero K] (e : Event K) : Hands e [primaryLoop e.final ⟨0, 0, 0, 0, []⟩] := by
  refine ⟨_, rfl, ?_⟩
  rw [primaryLoop_eq]
  refine ⟨rfl, rfl, rfl, rfl, ?_⟩
  simp only [List.nil_append]
  rw [List.forall₂_map_right_iff]
  exact List.forall₂_same.2 (fun p _ => ⟨rfl, rfl, ⟨rfl, rfl, rfl⟩, rfl⟩)

/-- C114: for each event Geant4 gets one vertex at the origin with just the final particles of the next event of the
generator, and vertices that were there already are kept; if the generator throws, nothing is added. -/
theorem C114_primaries [Zero K] (create : γ → Option (Res (Event K × γ))) (a : List (Vertex K)) (g : γ) :
    (∀ e g', create g = some (.ok (e, g')) →
      ∃ b, generatePrimaries create a g = some (.ok (a ++ b, g')) ∧ Hands e b) ∧
    (∀ x, create g = some (.error x) → generatePrimaries create a g = some (.error x)) := by
  constructor
  · intro e g' h
    exact ⟨_, by rw [generatePrimaries, h], hands_loop e⟩
  · intro x h
    rw [generatePrimaries, h]

example : ∃ b, generatePrimaries (fun _ : Unit => some (.ok (sampleEvent, ()))) [] () = some (.ok ([] ++ b, ())) ∧
    Hands sampleEvent b := (C114_primaries _ [] ()).1 _ _ rfl

/-! ## C114 runs -/

/-- The messages from one number on. -/
def messagesFrom (count n : Nat) : Str :=
  ((List.range' count n).filter (fun k => 100 ∣ k)).flatMap (fun k => "Beginning event #".toList ++ natText k ++ ['\n'])

theorem messagesFrom_succ (count n : Nat) :
    messagesFrom count (n + 1) = (beginOfEvent count).1 ++ messagesFrom (count + 1) n := by
  rw [messagesFrom, List.range'_succ, beginOfEvent]
  by_cases h : 100 ∣ count
  · rw [List.filter_cons_of_pos (by simpa using h), if_pos (Nat.dvd_iff_mod_eq_zero.1 h), List.flatMap_cons]
    rfl
  · rw [List.filter_cons_of_neg (by simpa using h), if_neg (fun h' => h (Nat.dvd_iff_mod_eq_zero.2 h'))]
    rfl

theorem messages_eq (n : Nat) : messagesFrom 0 n = messages n := by
  rw [messagesFrom, messages, List.range_eq_range']

/-- The loop of Geant4: how it ends, given how the generator goes on after the events. -/
theorem beamOn_run [Zero K] {create : γ → Option (Res (Event K × γ))} {g g1 : γ} {es : List (Event K)}
    (h : MakesEvents create g es g1) (m count : Nat) (l : List (List (Vertex K))) (t : Str) (r : Res γ)
    (hm : beamOn create m (count + es.length) g1 = some (l, t, r)) :
    ∃ as, List.Forall₂ Hands es as ∧
      beamOn create (es.length + m) count g = some (as ++ l, messagesFrom count es.length ++ t, r) := by
  induction h generalizing count with
  | nil g => exact ⟨[], .nil, by simpa [messagesFrom] using hm⟩
  | cons g g2 g' e es h1 _ ih =>
    obtain ⟨as, a1, a2⟩ := ih (count + 1) (by rw [← hm]; congr 1; simp; omega)
    obtain ⟨b, b1, b2⟩ := (C114_primaries create [] g).1 e g2 h1
    refine ⟨b :: as, .cons b2 a1, ?_⟩
    rw [List.length_cons, show es.length + 1 + m = (es.length + m) + 1 by omega, beamOn, b1]
    simp only [List.nil_append]
    have e2 : (beginOfEvent count).2 = count + 1 := rfl
    rw [e2, a2, messagesFrom_succ]
    simp

/-- C114: a run gives Geant4 exactly the events that the generator makes, in order, and prints every hundredth number;
if the generator throws after some events, just these were simulated. -/
theorem C114_run [Zero K] {create : γ → Option (Res (Event K × γ))} {g g1 : γ} {es : List (Event K)}
    (h : MakesEvents create g es g1) :
    (∃ as, List.Forall₂ Hands es as ∧ beamOn create es.length 0 g = some (as, messages es.length, .ok g1)) ∧
    (∀ x n, create g1 = some (.error x) → es.length < n →
      ∃ as, List.Forall₂ Hands es as ∧ beamOn create n 0 g = some (as, messages es.length, .error x)) := by
  constructor
  · obtain ⟨as, h1, h2⟩ := beamOn_run h 0 0 [] [] (.ok g1) rfl
    exact ⟨as, h1, by simpa [messages_eq] using h2⟩
  · intro x n hx hn
    obtain ⟨m, rfl⟩ : ∃ m, n = es.length + (m + 1) := ⟨n - es.length - 1, by omega⟩
    obtain ⟨as, h1, h2⟩ := beamOn_run h (m + 1) 0 [] [] (.error x) (by
      rw [beamOn, (C114_primaries create [] g1).2 x hx])
    exact ⟨as, h1, by simpa [messages_eq] using h2⟩

/-! ## C114 the number of events -/

theorem takeWhile_digits {l : Str} (h : ∀ c ∈ l, isDigit c) : l.takeWhile isDigit = l := by
  induction l with
  | nil => rfl
  | cons c l ih => rw [List.takeWhile_cons, if_pos (h c (by simp)), ih (fun c hc => h c (by simp [hc]))]

theorem decimal_eq (l : Str) : digitsVal l = decimal l := rfl

theorem dropWhile_blanks {b l : Str} (hb : ∀ c ∈ b, isSpace c) (hl : ∀ c ∈ l.head?, isSpace c = false) :
    skipBlank (b ++ l) = l := by
  rw [skipBlank, List.dropWhile_append_of_pos hb]
  cases l with
  | nil => rfl
  | cons c l => rw [List.dropWhile_cons_of_neg]; simpa using hl c rfl

theorem digit_not_sign {c : Char} (h : isDigit c) : c ≠ '-' ∧ c ≠ '+' ∧ isSpace c = false := by
  refine ⟨?_, ?_, ?_⟩
  · rintro rfl; exact absurd h (by decide)
  · rintro rfl; exact absurd h (by decide)
  · by_contra hs
    simp only [Bool.not_eq_false] at hs
    simp only [isSpace, Bool.or_eq_true, decide_eq_true_eq] at hs
    rcases hs with ((((rfl | rfl) | rfl) | rfl) | rfl) | rfl <;> exact absurd h (by decide)

theorem signOf_digits {l : Str} (hne : l ≠ []) (h : ∀ c ∈ l, isDigit c) : signOf l = (false, l) := by
  cases l with
  | nil => exact absurd rfl hne
  | cons c l =>
    obtain ⟨h1, h2, -⟩ := digit_not_sign (h c (by simp))
    unfold signOf
    split
    · next h' => exact absurd (List.cons.inj h').1 h1
    · next h' => exact absurd (List.cons.inj h').1 h2
    · rfl

theorem stoi_ok (neg : Bool) (digits : Str) (v : Int) : Source.stoi neg digits = .ok v ↔
    v = (if neg then -(decimal digits : Int) else decimal digits) ∧ -2147483648 ≤ v ∧ v ≤ 2147483647 := by
  cases neg <;> simp only [Source.stoi, decimal_eq, Bool.false_eq_true, if_false, if_true] <;> split
  all_goals
    rename_i h
    constructor
    · intro h'
      cases h'
      try exact ⟨rfl, h⟩
    · rintro ⟨rfl, h'⟩
      first | rfl | exact absurd h' h

/-- C114: exactly the numbers from 0 to 2³¹ - 1 are accepted as numbers of events, with blanks before them and with a sign
as for `std::stoi`; anything after the digits is refused. -/
theorem C114_number (arg : Str) (n : Int) : numEvents arg = some n ↔ IsCount arg n := by
  constructor
  · intro h
    rw [numEvents, stoiPos] at h
    set w := signOf (skipBlank arg) with hw
    set digits := w.2.takeWhile isDigit with hdg
    by_cases hd : digits = []
    · simp [hd] at h
    simp only [hd, if_false] at h
    have hdig : ∀ c ∈ digits, isDigit c := fun c hc => by
      have := List.all_takeWhile (l := w.2) (p := isDigit)
      exact List.all_eq_true.1 this c hc
    obtain ⟨sign, hs, hsg⟩ : ∃ sign : Str, skipBlank arg = sign ++ w.2 ∧
        (sign = [] ∧ w.1 = false ∨ sign = ['+'] ∧ w.1 = false ∨ sign = ['-'] ∧ w.1 = true) := by
      rw [hw]
      unfold signOf
      split
      · next t ht => exact ⟨['-'], by simp [ht], by simp⟩
      · next t ht => exact ⟨['+'], by simp [ht], by simp⟩
      · exact ⟨[], by simp, by simp⟩
    have ha : arg = arg.takeWhile isSpace ++ (sign ++ w.2) := by
      rw [← hs, skipBlank, List.takeWhile_append_dropWhile]
    have hlen : arg.length = (arg.takeWhile isSpace).length + sign.length + w.2.length := by
      have := congrArg List.length ha
      simpa [Nat.add_assoc] using this
    have hpre : digits <+: w.2 := List.takeWhile_prefix _
    have hle : digits.length ≤ w.2.length := hpre.length_le
    rcases hst : Source.stoi w.1 digits with x | v
    · rw [hst] at h; cases h
    rw [hst] at h
    dsimp only at h
    by_cases hpos : arg.length - (w.2.length - digits.length) < arg.length
    · rw [if_pos hpos] at h; cases h
    rw [if_neg hpos] at h
    by_cases hneg : v < 0
    · rw [if_pos hneg] at h; cases h
    rw [if_neg hneg] at h
    cases h
    obtain ⟨hv, h1, h2⟩ := (stoi_ok _ _ _).1 hst
    have hall : digits = w.2 := hpre.eq_of_length (by omega)
    refine ⟨arg.takeWhile isSpace, sign, digits, ?_, ?_, hd, hdig, ?_, ?_, ?_⟩
    · rw [hall, List.append_assoc]; exact ha
    · exact List.all_eq_true.1 List.all_takeWhile
    · rcases hsg with ⟨h3, -⟩ | ⟨h3, -⟩ | ⟨h3, h4⟩
      · exact .inl h3
      · exact .inr (.inl h3)
      · rw [h4, if_pos rfl] at hv
        exact .inr (.inr ⟨h3, by omega⟩)
    · cases hb : w.1 <;> simp only [hb, Bool.false_eq_true, if_false, if_true] at hv <;> omega
    · cases hb : w.1 <;> simp only [hb, Bool.false_eq_true, if_false, if_true] at hv <;> omega
  · rintro ⟨blanks, sign, digits, rfl, hbl, hne, hdig, hsg, rfl, hlt⟩
    have hd1 : ∀ c ∈ digits.head?, isSpace c = false := fun c hc =>
      (digit_not_sign (hdig c (List.mem_of_mem_head? hc))).2.2
    have hlt' : decimal digits < 2147483648 := by simpa using hlt
    have key : ∀ neg, (neg = true → decimal digits = 0) → signOf (sign ++ digits) = (neg, digits) →
        (∀ c ∈ (sign ++ digits).head?, isSpace c = false) → numEvents (blanks ++ sign ++ digits) = some (decimal digits : Int) := by
      intro neg h0 h1 h2
      rw [numEvents, stoiPos, List.append_assoc, dropWhile_blanks hbl h2, h1]
      simp only [takeWhile_digits hdig, hne, if_false]
      have hst : Source.stoi neg digits = .ok (decimal digits : Int) := by
        rw [stoi_ok]
        refine ⟨?_, by omega, by omega⟩
        cases neg with
        | false => rfl
        | true => rw [h0 rfl]; rfl
      rw [hst]
      simp
    rcases hsg with rfl | rfl | ⟨rfl, h0⟩
    · exact key false (by simp) (signOf_digits hne hdig) hd1
    · exact key false (by simp) rfl (by simp [isSpace])
    · exact key true (fun _ => h0) rfl (by simp [isSpace])

example : numEvents [' ', '+', '1', '2'] = some 12 :=
  (C114_number _ _).2 ⟨[' '], ['+'], ['1', '2'], by decide, by decide, by decide, by decide, by decide, by decide, by decide⟩

example : numEvents ['1', '2', '.', '5'] = none ∧ numEvents ['-', '1'] = none ∧ numEvents ['x'] = none := by decide

/-! ## C114 the program -/

/-- The text of a run of `n` events that ends after `m` of them. -/
def runText (n : Int) (m : Nat) : Str := "Simulating ".toList ++ intText n ++ " events . . .\n".toList ++ messages m

/-- C114: `marg4` needs a number of events and the name of a configuration file; it simulates that number of events, or as many
as the generator makes before it throws. -/
theorem C114_program [Zero K] (generator : Str → Res γ) (create : γ → Option (Res (Event K × γ))) (args : List Str) :
    (args.length < 2 → marg4 generator create args = some .usage) ∧
    ∀ number config rest, args = number :: config :: rest →
      ((¬ ∃ n, IsCount number n) → marg4 generator create args = some .badNumber) ∧
      ∀ n, IsCount number n →
        (∀ x, generator config = .error x → marg4 generator create args = some (.failed x)) ∧
        ∀ g, generator config = .ok g → ∀ es g1, MakesEvents create g es g1 →
          ((es.length : Int) = n → ∃ as, List.Forall₂ Hands es as ∧
            marg4 generator create args = some (.ran as (runText n es.length) none)) ∧
          ∀ x, create g1 = some (.error x) → (es.length : Int) < n → ∃ as, List.Forall₂ Hands es as ∧
            marg4 generator create args = some (.ran as (runText n es.length) (some x)) := by
  constructor
  · intro h
    match args, h with
    | [], _ => rfl
    | [_], _ => rfl
  rintro number config rest rfl
  constructor
  · intro h
    have : numEvents number = none := by
      rcases hn : numEvents number with _ | n
      · rfl
      · exact absurd ⟨n, (C114_number _ _).1 hn⟩ h
    simp only [marg4, this]
  intro n hn
  have hn' := (C114_number _ _).2 hn
  constructor
  · intro x hx
    simp only [marg4, hn', hx]
  intro g hg es g1 hes
  obtain ⟨h1, h2⟩ := C114_run hes
  constructor
  · rintro rfl
    obtain ⟨as, a1, a2⟩ := h1
    refine ⟨as, a1, ?_⟩
    unfold marg4 runText
    simp only [hn']
    simp only [hg, Int.toNat_natCast]
    rw [a2]
  · intro x hx hlt
    obtain ⟨as, a1, a2⟩ := h2 x n.toNat hx (by omega)
    refine ⟨as, a1, ?_⟩
    unfold marg4 runText
    simp only [hn']
    simp only [hg]
    rw [a2]

/-- A generator that has some events ready and throws then. -/
def fromList : List (Event ℚ) → Option (Res (Event ℚ × List (Event ℚ)))
  | [] => some (.error .marleyError)
  | e :: t => some (.ok (e, t))

theorem fromList_makes (l t : List (Event ℚ)) : MakesEvents fromList (l ++ t) l t := by
  induction l with
  | nil => exact .nil _
  | cons e l ih => exact .cons _ (l ++ t) _ _ _ rfl ih

example : ∃ as, List.Forall₂ Hands [sampleEvent, sampleEvent] as ∧
    marg4 (fun _ => .ok [sampleEvent, sampleEvent]) fromList [['2'], ['f']] =
      some (.ran as (runText 2 [sampleEvent, sampleEvent].length) none) :=
  ((((C114_program (fun _ => .ok [sampleEvent, sampleEvent]) fromList [['2'], ['f']]).2 ['2'] ['f'] [] rfl).2 2
    ⟨[], [], ['2'], by decide, by decide, by decide, by decide, by decide, by decide, by decide⟩).2 _ rfl _ _
      (fromList_makes [sampleEvent, sampleEvent] [])).1 (by simp)

example : ∃ as, List.Forall₂ Hands [sampleEvent, sampleEvent] as ∧
    marg4 (fun _ => .ok [sampleEvent, sampleEvent]) fromList [['5'], ['f']] =
      some (.ran as (runText 5 [sampleEvent, sampleEvent].length) (some .marleyError)) :=
  ((((C114_program (fun _ => .ok [sampleEvent, sampleEvent]) fromList [['5'], ['f']]).2 ['5'] ['f'] [] rfl).2 5
    ⟨[], [], ['5'], by decide, by decide, by decide, by decide, by decide, by decide, by decide⟩).2 _ rfl _ _
      (fromList_makes [sampleEvent, sampleEvent] [])).2 _ rfl (by simp)

/-! ## C114 conservation laws -/

/-- The primary particles of an event of Geant4 have the energy and the momentum of these particles together. -/
structure TotalsOf (a : List (Vertex ℝ)) (l : List (Particle ℝ)) : Prop where
  energy : ((primaries a).map (·.E)).sum = (l.map (·.E)).sum
  px : ((primaries a).map (·.px)).sum = (l.map (·.px)).sum
  py : ((primaries a).map (·.py)).sum = (l.map (·.py)).sum
  pz : ((primaries a).map (·.pz)).sum = (l.map (·.pz)).sum

theorem same_map {M : Type} {l : List (Particle K)} {q : List (Primary K)} (h : List.Forall₂ SameParticle l q)
    (f : Particle K → M) (f' : Primary K → M) (hf : ∀ p q, SameParticle p q → f' q = f p) : q.map f' = l.map f := by
  induction h with
  | nil => rfl
  | cons h _ ih => simp [ih, hf _ _ h]

theorem hands_totals {e : Event ℝ} {a : List (Vertex ℝ)} (h : Hands e a) : TotalsOf a e.final := by
  obtain ⟨v, rfl, -, -, -, -, h⟩ := h
  have hp : primaries [v] = v.primaries := by simp [primaries]
  refine ⟨?_, ?_, ?_, ?_⟩ <;> rw [hp]
  · rw [same_map h (·.E) (·.E) (fun _ _ h => h.energy)]
  · rw [same_map h (·.px) (·.px) (fun _ _ h => h.momentum.1)]
  · rw [same_map h (·.py) (·.py) (fun _ _ h => h.momentum.2.1)]
  · rw [same_map h (·.pz) (·.pz) (fun _ _ h => h.momentum.2.2)]

theorem makes_createEvents {G : Type} {W : Gen.World G} {g g' : Gen.Gen G} {es : List (Event ℝ)}
    (h : MakesEvents (fun g => g.createEvent W) g es g') : g.createEvents W es.length = some (.ok (es, g')) := by
  induction h with
  | nil g => rfl
  | cons g g1 g' e es h1 _ ih =>
    simp only [List.length_cons, Gen.Gen.createEvents, h1, ih]

/-- C114: if the generator is set up as the program does it (C88), then in every event Geant4 gets particles that have together
the energy and the momentum of the projectile and the target. -/
theorem C114_conserved {G : Type} {W : Gen.World G} (hA : W.arith = Sampling.exact) (hE : W.engine.Lawful) {fuel : Nat}
    {D : Decay.Data} (hW : W.decay = Decay.decayer Sampling.exact W.engine fuel D) (hD : MassesNonneg D) {E : Xs.Env G}
    (hEA : E.arith = Sampling.exact) (hEE : E.engine = W.engine) {g g' : Gen.Gen G}
    (hx : ∀ r ∈ g.reactions, Physical E r) (hr : Configured g.rotator) {es : List (Event ℝ)}
    (h : MakesEvents (fun g => g.createEvent W) g es g')
    (hm : ∀ ev ∈ es, ∀ p, ev.final[1]? = some p → 0 < p.mass) :
    ∃ as, beamOn (fun g => g.createEvent W) es.length 0 g = some (as, messages es.length, .ok g') ∧
      List.Forall₂ (fun e a => Hands e a ∧ TotalsOf a e.initial) es as := by
  obtain ⟨as, h1, h2⟩ := (C114_run h).1
  obtain ⟨-, h3⟩ := C88_events hA hE hW hD hEA hEE _ hx hr (makes_createEvents h) hm
  refine ⟨as, h2, ?_⟩
  clear h h2 hm
  induction h1 with
  | nil => exact .nil
  | cons h0 _ ih =>
    refine .cons ⟨h0, ?_⟩ (ih (fun ev h => h3 ev (by simp [h])))
    have ht := (h3 _ List.mem_cons_self).1.totals
    have hf := hands_totals h0
    exact ⟨hf.energy.trans ht.energy, hf.px.trans ht.px, hf.py.trans ht.py, hf.pz.trans ht.pz⟩

example : ∃ bound e g', MakesEvents (fun g => g.createEvent ionWorld) (ionGen bound) [e] g' ∧
    ∃ a, Hands e a ∧ TotalsOf a e.initial ∧ (primaries a).length = 3 := by
  obtain ⟨-, hr, hD, bound, ev, g', h1, h2, h3, -⟩ := ion_creates
  have hx : ∀ b, ∀ r ∈ (ionGen b).reactions, Physical ionEnv r := by
    intro b r hr
    simp only [ionGen, List.mem_singleton] at hr
    subst hr
    exact .nuclear ionNuc ionNuc_good
  have hmk : MakesEvents (fun g => g.createEvent ionWorld) (ionGen bound) [ev] g' := .cons _ _ _ _ _ h1 (.nil _)
  refine ⟨bound, ev, g', hmk, ?_⟩
  obtain ⟨as, -, a2⟩ := C114_conserved rfl half_ok rfl hD rfl rfl (hx bound) hr hmk (by simpa using h3)
  cases a2 with
  | cons b _ =>
    obtain ⟨v, rfl, -, -, -, -, hf⟩ := b.1
    exact ⟨[v], b.1, b.2, by rw [← h2, hf.length_eq]; simp [primaries]⟩

/-! ## C114 printing events -/

theorem evgenLoop_run {F : DblFmt K} {create : γ → Option (Res (Event K × γ))} {g g1 : γ} {es : List (Event K)}
    (h : MakesEvents create g es g1) (m : Nat) (t : Str) (r : Res γ) (hm : evgenLoop F create m g1 = some (t, r)) :
    evgenLoop F create (es.length + m) g = some (printed F es ++ t, r) := by
  induction h with
  | nil g => simpa [printed] using hm
  | cons g g2 g' e es h1 _ ih =>
    rw [List.length_cons, show es.length + 1 + m = (es.length + m) + 1 by omega, evgenLoop, h1]
    simp [ih hm, printed]

/-- C114: `evgen` prints the first ten events of the generator, or those made before it throws. -/
theorem C114_evgen (F : DblFmt K) (create : γ → Option (Res (Event K × γ))) :
    (∀ x, evgen F (.error x) create = some ([], .error x)) ∧
    ∀ g es g1, MakesEvents create g es g1 →
      (es.length = 10 → evgen F (.ok g) create = some (printed F es, .ok ())) ∧
      ∀ x, create g1 = some (.error x) → es.length < 10 → evgen F (.ok g) create = some (printed F es, .error x) := by
  refine ⟨fun x => rfl, fun g es g1 h => ⟨fun h10 => ?_, fun x hx hlt => ?_⟩⟩
  · have := evgenLoop_run (F := F) h 0 [] (.ok g1) rfl
    rw [h10] at this
    simp only [evgen, this, List.append_nil]
  · obtain ⟨m, hm⟩ : ∃ m, 10 = es.length + (m + 1) := ⟨10 - es.length - 1, by omega⟩
    have := evgenLoop_run (F := F) h (m + 1) [] (.error x) (by rw [evgenLoop, hx])
    rw [← hm] at this
    simp only [evgen, this, List.append_nil]

example : evgen ratFmt (.ok (List.replicate 11 sampleEvent)) fromList =
    some (printed ratFmt (List.replicate 10 sampleEvent), .ok ()) :=
  ((C114_evgen ratFmt fromList).2 _ _ _ (fromList_makes (List.replicate 10 sampleEvent) [sampleEvent])).1 rfl

example : evgen ratFmt (.ok [sampleEvent]) fromList = some (printed ratFmt [sampleEvent], .error .marleyError) :=
  ((C114_evgen ratFmt fromList).2 _ _ _ (fromList_makes [sampleEvent] [])).2 _ rfl (by simp)

theorem readAll_printed [Zero K] {f : DblFmt K} (hf : f.Lawful) (es : List (Event K)) (h : ∀ e ∈ es, AsciiOk e) (n : Nat)
    (hn : es.length < n) (ws : Str) (hws : ∀ c ∈ ws, isSpace c = true) :
    Event.readAll f n (ws ++ printed f es) = .ok es := by
  induction ws with
  | cons c ws ih =>
    cases n with
    | zero => omega
    | succ n =>
      have := ih (fun d hd => hws d (by simp [hd]))
      rw [Event.readAll] at this ⊢
      rw [List.cons_append, Event.read_space (hws c (by simp))]
      exact this
  | nil =>
    induction es generalizing n with
    | nil =>
      cases n with
      | zero => omega
      | succ n => simp [printed, Event.readAll, Event.read, readInt, splitSign2]
    | cons e es ih =>
      cases n with
      | zero => omega
      | succ n =>
        have he := h e (by simp)
        have h1 := ih (fun e he => h e (by simp [he])) n (by simpa using hn)
        have hp : printed f (e :: es) = e.print f ++ '\n' :: printed f es := by simp [printed]
        rw [List.nil_append, hp, Event.readAll, Event.read_print hf e he.1 he.2.1 he.2.2]
        cases n with
        | zero => simp at hn
        | succ n =>
          have h2 : Event.readAll f (n+1) ('\n' :: '\n' :: printed f es) = Event.readAll f (n+1) (printed f es) := by
            simp only [Event.readAll, Event.read_space nl]
          dsimp only
          rw [h2]
          simp only [List.nil_append] at h1
          rw [h1]

/-- C114: what is printed can be read again: the empty lines between the events do no harm. -/
theorem C114_read_again [Zero K] (f : DblFmt K) (hf : f.Lawful) (es : List (Event K)) (h : ∀ e ∈ es, AsciiOk e) (n : Nat)
    (hn : es.length < n) : Event.readAll f n (printed f es) = .ok es := by
  simpa using readAll_printed hf es h n hn [] (by simp)

example : Event.readAll ratFmt 3 (printed ratFmt [sampleEvent, sampleEvent]) = .ok [sampleEvent, sampleEvent] :=
  C114_read_again ratFmt ratFmt_lawful _ (by
    intro e he
    simp only [List.mem_cons, List.not_mem_nil, or_false, or_self] at he
    subst he
    exact ⟨sampleEvent_fits, by decide, by decide⟩) 3 (by simp)

/-! ## C114 printing the events of a file -/

/-- A reader answers as the book says. -/
def AgreesBook [DivisionRing K] (F : TextFmt K) (ofLong : Int → K) (d : OnDisk) (s : Sys K) (b : Book K) : Prop :=
  ∀ ops, ops.count .next ≤ b.rest.length + 1 → answers F ofLong d s ops = expected b ops

theorem efrLoop_run [DivisionRing K] {F : TextFmt K} {ofLong : Int → K} {d : OnDisk} {s : Sys K} {b : Book K}
    (h : AgreesBook F ofLong d s b) (hb : b.ended = false) (fuel : Nat) (hfuel : b.rest.length < fuel) :
    efrLoop F ofLong d fuel s = some (printed F.dbl (b.rest.map (·.1)), none) := by
  obtain ⟨rest, shown, atEnd, ended⟩ := b
  simp only at hb hfuel
  subst hb
  induction rest generalizing s shown fuel with
  | nil =>
    obtain ⟨fuel, rfl⟩ : ∃ m, fuel = m + 1 := ⟨fuel - 1, by omega⟩
    have h1 := h [.next, .good] (by simp)
    simp only [answers, expected, ask] at h1
    rw [efrLoop]
    rcases hn : nextEvent F ofLong d s with ⟨s1, x | ⟨m, e⟩⟩
    · simp [hn] at h1
    · simp only [hn] at h1 ⊢
      rcases hg : good s1.reader with x | c
      · simp [hg] at h1
      · simp [hg] at h1
        obtain ⟨-, rfl⟩ := h1
        rfl
  | cons p rest ih =>
    obtain ⟨fuel, rfl⟩ : ∃ m, fuel = m + 1 := ⟨fuel - 1, by omega⟩
    obtain ⟨e0, x0⟩ := p
    have h1 := h [.next, .good] (by simp)
    simp only [answers, expected, ask] at h1
    rw [efrLoop]
    rcases hn : nextEvent F ofLong d s with ⟨s1, x | ⟨m, e⟩⟩
    · simp [hn] at h1
    · simp only [hn] at h1 ⊢
      rcases hg : good s1.reader with x | c
      · simp [hg] at h1
      · simp [hg] at h1
        obtain ⟨⟨rfl, rfl⟩, rfl⟩ := h1
        have h2 : AgreesBook F ofLong d s1 ⟨rest, x0, atEnd, false⟩ := by
          intro ops hops
          have := h (.next :: ops) (by simp; omega)
          simp only [answers, expected, ask, hn] at this
          exact (List.cons.inj this).2
        rw [ih fuel x0 (by simpa using hfuel) h2]
        simp [printed]

/-- C114: `efr` prints the averaged cross section in units of 10⁻⁴² cm² and then all events of the file, in order, once;
if the file cannot be read, nothing is printed and the exception is passed on. -/
theorem C114_efr [DivisionRing K] (num : K → Str) (F : TextFmt K) (ofLong : Int → K) (logging : Bool) :
    (∀ text b, ReadsOnceAs F ofLong text b → b.ended = false → ∀ fuel, b.rest.length < fuel →
      efr num F ofLong ⟨true, some text⟩ logging fuel =
        some ("flux-averaged total cross section = ".toList ++ num (b.shown * squareInverseMeV) ++
          " * 10^{-42} cm^2 / atom\n".toList ++ printed F.dbl (b.rest.map (·.1)), none)) ∧
    (∀ d x fuel, answers F ofLong d ⟨logging, fresh⟩ [.flux false] = [.fail x] →
      efr num F ofLong d logging fuel = some ([], some x)) ∧
    (∀ d fuel, d.found = false ∨ d.text = none →
      efr num F ofLong d logging fuel = some ([], some (.exc .marleyError))) := by
  refine ⟨?_, ?_, ?_⟩
  · intro text b h hb fuel hfuel
    have h0 := h logging [.flux false] (by simp) (by simp)
    simp only [answers, expected, ask] at h0
    rw [efr]
    rcases hx : fluxXsec F ofLong ⟨true, some text⟩ false ⟨logging, fresh⟩ with ⟨s1, x | x⟩
    · simp [hx] at h0
    · simp [hx] at h0
      subst h0
      have h2 : AgreesBook F ofLong ⟨true, some text⟩ s1 b := by
        intro ops hops
        have := h logging (.flux false :: ops) (by simp) (by simpa using hops)
        simp only [answers, expected, ask, hx] at this
        exact (List.cons.inj this).2
      dsimp only
      rw [efrLoop_run h2 hb fuel hfuel]
  · intro d x fuel h
    rw [efr]
    rcases hx : fluxXsec F ofLong d false ⟨logging, fresh⟩ with ⟨s1, y | y⟩
    · simp only [answers, ask, hx, List.cons.injEq, Ans.fail.injEq, and_true] at h
      subst h
      rfl
    · simp [answers, ask, hx] at h
  · intro d fuel h
    have he : ∃ s, ensure F ofLong d ⟨logging, fresh⟩ = (s, .error (.exc .marleyError)) := by
      rw [ensure, if_neg (by simp [fresh]), deduce]
      by_cases h0 : d.found = false
      · exact ⟨_, by rw [if_pos h0]⟩
      · rw [if_neg h0, h.resolve_left h0]
        exact ⟨_, rfl⟩
    obtain ⟨s, he⟩ := he
    rw [efr, fluxXsec, he]

/-- C114: for a file in the ASCII format with events, as `marley` writes it. -/
theorem C114_efr_ascii [Field K] (num : K → Str) (F : TextFmt K) (hf : F.dbl.Lawful) (ofLong : Int → K) (logging : Bool) (x : K)
    (es : List (Event K)) (hne : es ≠ []) (he : ∀ e ∈ es, AsciiOk e) (fuel : Nat) (hfuel : es.length < fuel) :
    efr num F ofLong ⟨true, some (asciiFile F.dbl x es)⟩ logging fuel =
      some ("flux-averaged total cross section = ".toList ++ num (x * squareInverseMeV) ++
        " * 10^{-42} cm^2 / atom\n".toList ++ printed F.dbl es, none) := by
  have h := (C114_efr num F ofLong logging).1 (asciiFile F.dbl x es) (constantBook x es)
    (fun lg ops h _ => C65_ascii_partial F hf ofLong x es hne he lg ops h) rfl fuel (by simpa [constantBook] using hfuel)
  rw [h]
  simp only [constantBook, List.map_map]
  congr 5
  exact List.map_id _

example (num : ℚ → Str) : efr num exTextInt (fun n => (n : ℚ)) ⟨true, some (asciiFile ratIntFmt (3 / 2) [sampleEvent, sampleEvent])⟩ true 3 =
    some ("flux-averaged total cross section = ".toList ++ num (3 / 2 * squareInverseMeV) ++
      " * 10^{-42} cm^2 / atom\n".toList ++ printed ratIntFmt [sampleEvent, sampleEvent], none) :=
  C114_efr_ascii num exTextInt ratIntFmt_lawful _ true (3 / 2) [sampleEvent, sampleEvent] (by simp) (by
    intro e he
    simp only [List.mem_cons, List.not_mem_nil, or_false, or_self] at he
    subst he
    exact ⟨sampleEvent_fits, by decide, by decide⟩) 3 (by simp)

end Marley.Props
