import Verif.Model.Event
import Verif.Lemmas.Stream
import Verif.Lemmas.JsonParse

/-! Helper lemmas about the text formats of events. -/

set_option autoImplicit false

namespace Marley
open Json (Str isDigit natText intText isSpace)

/-- The integer fields of a particle fit in a 32-bit `int`. -/
def Particle.Fits {K} (p : Particle K) : Prop :=
  (intMin ≤ p.pdg ∧ p.pdg ≤ intMax) ∧ (intMin ≤ p.charge ∧ p.charge ≤ intMax)

/-- The integer fields of an event and its particle counts fit in a 32-bit
`int`. -/
def Event.Fits {K} (e : Event K) : Prop :=
  (∀ p ∈ e.initial, p.Fits) ∧ (∀ p ∈ e.final, p.Fits) ∧ (intMin ≤ e.twoJ ∧ e.twoJ ≤ intMax) ∧
  (e.initial.length : Int) ≤ intMax ∧ (e.final.length : Int) ≤ intMax

variable {K : Type} {f : DblFmt K}

theorem sp : isSpace ' ' = true := by decide
theorem nl : isSpace '\n' = true := by decide
theorem spd : isDigit ' ' = false := by decide
theorem nld : isDigit '\n' = false := by decide

theorem Particle.read_space {c : Char} (hc : isSpace c = true) (t : Str) :
    Particle.read f (c :: t) = Particle.read f t := by
  simp only [Particle.read, readInt_space hc]

theorem Particle.read_print (hf : f.Lawful) {p : Particle K} (hp : p.Fits) (t : Str) :
    Particle.read f (p.print f ++ '\n' :: t) = some (p, '\n' :: t) := by
  simp only [Particle.read, Particle.print, List.append_assoc, List.cons_append]
  simp [readInt_intText hp.1 spd, readInt_intText hp.2 nld, get_print hf _ sp, get_space f sp,
    readInt_space sp]

theorem Event.readParticles_space {c : Char} (hc : isSpace c = true) (n : Nat) (hn : n ≠ 0)
    (t : Str) : Event.readParticles f n (c :: t) = Event.readParticles f n t := by
  cases n with
  | zero => exact absurd rfl hn
  | succ n => simp only [Event.readParticles, Particle.read_space hc]

/-- Reading back the lines of a nonempty list of particles leaves the last
newline in the stream. -/
theorem Event.readParticles_print (hf : f.Lawful) (l : List (Particle K))
    (hl : ∀ p ∈ l, p.Fits) (hne : l ≠ []) (t : Str) :
    Event.readParticles f l.length (Event.printParticles f l ++ t) = .ok (l, '\n' :: t) := by
  induction l with
  | nil => exact absurd rfl hne
  | cons p l ih =>
    simp only [Event.printParticles, List.flatMap_cons, List.length_cons, Event.readParticles,
      List.append_assoc, List.cons_append, List.nil_append]
    rw [Particle.read_print hf (hl p (by simp))]
    dsimp only
    by_cases hl0 : l = []
    · subst hl0; simp [Event.readParticles]
    · rw [readParticles_space nl _ (by simpa using hl0)]
      have := ih (fun q hq => hl q (by simp [hq])) hl0
      rw [Event.printParticles] at this
      rw [this]

theorem parity_read_toChar (π : Parity) (t : Str) :
    Parity.read (' ' :: π.toChar :: t) = .ok (some π, t) := by
  rcases π with ⟨b⟩
  cases b
  · have : List.dropWhile Parity.isSpace (' ' :: '-' :: t) = '-' :: t := by
      simp [Parity.isSpace]
    simp [Parity.read, Parity.toChar, this, Parity.ofChar]
  · have : List.dropWhile Parity.isSpace (' ' :: '+' :: t) = '+' :: t := by
      simp [Parity.isSpace]
    simp [Parity.read, Parity.toChar, this, Parity.ofChar]

theorem Event.read_space [Zero K] {c : Char} (hc : isSpace c = true) (t : Str) :
    Event.read f (c :: t) = Event.read f t := by
  simp only [Event.read, readInt_space hc]

/-- A written header is read and the body of `read` takes over. -/
theorem Event.read_header [Zero K] (hf : f.Lawful) (ni nf : Nat) (hni : (ni : Int) ≤ intMax)
    (hnf : (nf : Int) ≤ intMax) (Ex : K) (twoJ : Int) (hJ : intMin ≤ twoJ ∧ twoJ ≤ intMax)
    (π : Parity) (t : Str) :
    Event.read f (Event.printHeader f ni nf Ex twoJ π ++ t) =
      Event.readBody f ni nf Ex twoJ π ('\n' :: t) := by
  simp only [Event.read, Event.printHeader, List.append_assoc, List.cons_append, List.nil_append]
  simp [readInt_natText hni spd, readInt_natText hnf spd, readInt_intText hJ spd,
    get_print hf _ sp, get_space f sp, readInt_space sp, parity_read_toChar]

theorem Event.read_print [Zero K] (hf : f.Lawful) (e : Event K) (h : e.Fits)
    (hi : 2 ≤ e.initial.length) (hfi : 2 ≤ e.final.length) (t : Str) :
    Event.read f (e.print f ++ t) = .ok (e, some ('\n' :: t)) := by
  obtain ⟨h1, h2, h3, h4, h5⟩ := h
  have n1 : e.initial ≠ [] := by rintro h; rw [h] at hi; simp at hi
  have n2 : e.final ≠ [] := by rintro h; rw [h] at hfi; simp at hfi
  rw [Event.print, List.append_assoc, Event.read_header hf _ _ h4 h5 _ _ h3, Event.readBody,
    if_neg (by omega), if_neg (by omega)]
  simp only [Int.toNat_natCast]
  rw [readParticles_space nl _ (by omega), List.append_assoc,
    Event.readParticles_print hf _ h1 n1]
  dsimp only
  rw [readParticles_space nl _ (by omega), Event.readParticles_print hf _ h2 n2]

theorem Event.readAll_print [Zero K] (hf : f.Lawful) (es : List (Event K))
    (h : ∀ e ∈ es, e.Fits ∧ 2 ≤ e.initial.length ∧ 2 ≤ e.final.length) (n : Nat)
    (hn : es.length < n) (ws : Str) (hws : ∀ c ∈ ws, isSpace c = true) :
    Event.readAll f n (ws ++ es.flatMap (Event.print f)) = .ok es := by
  induction ws with
  | cons c ws ih =>
    cases n with
    | zero => omega
    | succ n =>
      have := ih (fun d hd => hws d (by simp [hd]))
      rw [Event.readAll] at this ⊢
      rw [List.cons_append, Event.read_space (hws c (by simp))]
      exact this
  | nil =>
    induction es generalizing n with
    | nil =>
      cases n with
      | zero => omega
      | succ n => simp [Event.readAll, Event.read, readInt, splitSign2]
    | cons e es ih =>
      cases n with
      | zero => omega
      | succ n =>
        have he := h e (by simp)
        simp only [List.nil_append, List.flatMap_cons, Event.readAll]
        rw [Event.read_print hf e he.1 he.2.1 he.2.2]
        dsimp only
        have h1 := ih (fun e he => h e (by simp [he])) n (by simpa using hn)
        cases n with
        | zero => simp at hn
        | succ n =>
          have h2 : Event.readAll f (n+1) ('\n' :: es.flatMap (Event.print f)) =
              Event.readAll f (n+1) (es.flatMap (Event.print f)) := by
            simp only [Event.readAll, Event.read_space nl]
          rw [h2]
          simp only [List.nil_append] at h1
          rw [h1]

/-! ### Malformed input -/

theorem Particle.read_cut (hf : f.Lawful) {p : Particle K} (hp : p.Fits) (j : Nat) (hj : j < 7)
    (t : Str) (ht : NotNumber t) :
    Particle.read f ((([intText p.pdg, f.print p.E, f.print p.px, f.print p.py, f.print p.pz,
      f.print p.mass, intText p.charge].take j).flatMap (fun w => w ++ [' '])) ++ t) = none := by
  have n1 : NotNumber (' ' :: t) := by
    obtain ⟨ws, u, rfl, hws, h⟩ := ht
    exact ⟨' ' :: ws, u, rfl, by simpa using ⟨sp, hws⟩, h⟩
  interval_cases j <;>
    simp [Particle.read, readInt_intText hp.1 spd, get_print hf _ sp, get_space f sp,
      readInt_space sp, readInt_notNumber ht, get_notNumber hf ht]

/-- Fewer complete lines than announced, then something that is not a particle. -/
theorem Event.readParticles_cut (l : List (Particle K)) (hf : f.Lawful)
    (hl : ∀ p ∈ l, p.Fits) (n : Nat) (hn : l.length < n) (t : Str)
    (ht : Particle.read f t = none) :
    Event.readParticles f n (Event.printParticles f l ++ t) = .error .marleyError := by
  induction l generalizing n with
  | nil =>
    cases n with
    | zero => simp at hn
    | succ n => simp [Event.printParticles, Event.readParticles, ht]
  | cons p l ih =>
    cases n with
    | zero => simp at hn
    | succ n =>
      simp only [Event.printParticles, List.flatMap_cons, Event.readParticles,
        List.append_assoc, List.cons_append, List.nil_append]
      rw [Particle.read_print hf (hl p (by simp))]
      dsimp only
      simp only [List.length_cons, Nat.add_lt_add_iff_right] at hn
      rw [readParticles_space nl _ (by omega)]
      have := ih (fun q hq => hl q (by simp [hq])) n hn
      rw [Event.printParticles] at this
      rw [this]

theorem Event.readParticles_exc (n : Nat) (s : Str) (x : Exc)
    (h : Event.readParticles f n s = .error x) : x = .marleyError := by
  induction n generalizing s with
  | zero => simp [Event.readParticles] at h
  | succ n ih =>
    rw [Event.readParticles] at h
    split at h
    · simpa using h.symm
    · split at h
      · next e => cases h; exact ih _ e
      · cases h

theorem Event.readParticles_length (n : Nat) (s : Str) (l : List (Particle K)) (t : Str)
    (h : Event.readParticles f n s = .ok (l, t)) : l.length = n := by
  induction n generalizing s l with
  | zero => simp [Event.readParticles] at h; simp [h.1]
  | succ n ih =>
    rw [Event.readParticles] at h
    split at h
    · cases h
    · split at h
      · cases h
      · next e => cases h; simp [ih _ _ e]

theorem parity_read_exc (s : Str) (x : Exc) (h : Parity.read s = .error x) : x = .marleyError := by
  rw [Parity.read] at h
  split at h
  · cases h
  · split at h
    · cases h
    · next e =>
      cases h
      rw [Parity.ofChar] at e
      split at e
      · cases e
      · split at e
        · cases e
        · cases e; rfl

end Marley
