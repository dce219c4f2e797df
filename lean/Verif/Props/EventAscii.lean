import Verif.Lemmas.Event

/-!
# C06, C07: the ASCII format of events

`f : DblFmt K` is the conversion of doubles to and from text; `f.Lawful` is what
is assumed of the C++ standard library (`Verif.Model.Stream`).  `e.Fits` says
that integer members fit in an `int`, as they do in every C++ object.
-/

set_option autoImplicit false

namespace Marley.Props
open Marley Json

variable {K : Type} [Zero K]

/-- A concrete event: νₑ + ⁴⁰Ar → e⁻ + ⁴⁰K* with a photon. -/
def sampleEvent : Event ℚ where
  initial := [⟨12, 20, 0, 0, 20, 0, 0⟩, ⟨1000180400, 37224, 0, 0, 0, 37224, 0⟩]
  final := [⟨11, 10, 3, 4, 7, 1/2, -1⟩, ⟨1000190400, 37230, -3, -4, 13, 37226, 1⟩,
    ⟨22, 4, 0, 0, 4, 0, 0⟩]
  Ex := 19/5
  twoJ := 8
  parity := ⟨false⟩

theorem sampleEvent_fits : sampleEvent.Fits := by
  simp [sampleEvent, Event.Fits, Particle.Fits, intMin, intMax]

/-- **C06.** Reading a written event gives the event back, with the rest of the
stream (after the last newline, which stays) untouched. -/
theorem C06_event_ascii_roundtrip (f : DblFmt K) (hf : f.Lawful) (e : Event K) (h : e.Fits)
    (hi : 2 ≤ e.initial.length) (hfin : 2 ≤ e.final.length) (rest : Str) :
    Event.read f (Event.print f e ++ rest) = .ok (e, some ('\n' :: rest)) :=
  Event.read_print hf e h hi hfin rest

example (rest : Str) : Event.read ratFmt (Event.print ratFmt sampleEvent ++ rest) =
    .ok (sampleEvent, some ('\n' :: rest)) :=
  C06_event_ascii_roundtrip ratFmt ratFmt_lawful sampleEvent sampleEvent_fits
    (by simp [sampleEvent]) (by simp [sampleEvent]) rest

/-- **C06.** Reading a file of written events one after the other until the
stream fails returns the same sequence. -/
theorem C06_event_sequence_roundtrip (f : DblFmt K) (hf : f.Lawful) (es : List (Event K))
    (h : ∀ e ∈ es, e.Fits ∧ 2 ≤ e.initial.length ∧ 2 ≤ e.final.length)
    (n : Nat) (hn : es.length < n) :
    Event.readAll f n (es.flatMap (Event.print f)) = .ok es := by
  simpa using Event.readAll_print hf es h n hn [] (by simp)

example : Event.readAll ratFmt 3 ([sampleEvent, sampleEvent].flatMap (Event.print ratFmt)) =
    .ok [sampleEvent, sampleEvent] :=
  C06_event_sequence_roundtrip ratFmt ratFmt_lawful _
    (by intro e he; simp at he; subst he
        exact ⟨sampleEvent_fits, by simp [sampleEvent], by simp [sampleEvent]⟩) 3 (by simp)

/-! ## C07 -/

/-- Text of a header line announcing `ni` initial and `nf` final particles. -/
def headerText (f : DblFmt K) (ni nf : Int) (Ex : K) (twoJ : Int) (sign : Char) : Str :=
  intText ni ++ [' '] ++ intText nf ++ [' '] ++ f.print Ex ++ [' '] ++ intText twoJ ++
    [' ', sign, '\n']

theorem read_headerText (f : DblFmt K) (hf : f.Lawful) (ni nf : Int)
    (hni : intMin ≤ ni ∧ ni ≤ intMax) (hnf : intMin ≤ nf ∧ nf ≤ intMax) (Ex : K) (twoJ : Int)
    (hJ : intMin ≤ twoJ ∧ twoJ ≤ intMax) (π : Parity) (t : Str) :
    Event.read f (headerText f ni nf Ex twoJ π.toChar ++ t) =
      Event.readBody f ni nf Ex twoJ π ('\n' :: t) := by
  simp only [Event.read, headerText, List.append_assoc, List.cons_append, List.nil_append]
  simp [readInt_intText hni spd, readInt_intText hnf spd, readInt_intText hJ spd,
    get_print hf _ sp, get_space f sp, readInt_space sp, parity_read_toChar]

/-- **C07.** A header announcing fewer than two initial or final particles is an
error, whatever follows. -/
theorem C07_too_few_particles (f : DblFmt K) (hf : f.Lawful) (ni nf : Int)
    (hni : intMin ≤ ni ∧ ni ≤ intMax) (hnf : intMin ≤ nf ∧ nf ≤ intMax) (Ex : K) (twoJ : Int)
    (hJ : intMin ≤ twoJ ∧ twoJ ≤ intMax) (sign : Char) (hs : sign = '+' ∨ sign = '-')
    (few : ni < 2 ∨ nf < 2) (rest : Str) :
    Event.read f (headerText f ni nf Ex twoJ sign ++ rest) = .error .marleyError := by
  have : ∃ π : Parity, sign = π.toChar := by
    rcases hs with h | h
    · exact ⟨⟨true⟩, by simpa [Parity.toChar] using h⟩
    · exact ⟨⟨false⟩, by simpa [Parity.toChar] using h⟩
  obtain ⟨π, rfl⟩ := this
  rw [read_headerText f hf ni nf hni hnf Ex twoJ hJ, Event.readBody]
  by_cases h : ni < 2
  · rw [if_pos h]
  · rw [if_neg h, if_pos (by omega)]

example : Event.read ratFmt (headerText ratFmt 2 (-7) (3 : ℚ) 0 '+' ++ ['x']) =
    .error .marleyError :=
  C07_too_few_particles ratFmt ratFmt_lawful 2 (-7) (by decide) (by decide) 3 0 (by decide) '+'
    (Or.inl rfl) (Or.inr (by decide)) _

/-- The seven fields of a particle line. -/
def particleFields (f : DblFmt K) (p : Particle K) : List Str :=
  [intText p.pdg, f.print p.E, f.print p.px, f.print p.py, f.print p.pz, f.print p.mass,
    intText p.charge]

/-- **C07.** A particle list that is cut short or contains something that is not
a number: `ls` complete lines, fewer than announced, then `j < 7` fields of the
next particle, then the end of the stream or text that does not start a number.
The result is `marley::Error`. -/
theorem C07_particle_list_cut_short (f : DblFmt K) (hf : f.Lawful) (ni nf : Int)
    (hni : intMin ≤ ni ∧ ni ≤ intMax) (hnf : intMin ≤ nf ∧ nf ≤ intMax) (Ex : K) (twoJ : Int)
    (hJ : intMin ≤ twoJ ∧ twoJ ≤ intMax) (sign : Char) (hs : sign = '+' ∨ sign = '-')
    (ls : List (Particle K)) (hls : ∀ p ∈ ls, p.Fits) (short : (ls.length : Int) < ni + nf)
    (p : Particle K) (hp : p.Fits) (j : Nat) (hj : j < 7) (tail : Str) (ht : NotNumber tail) :
    Event.read f (headerText f ni nf Ex twoJ sign ++ Event.printParticles f ls ++
      ((particleFields f p).take j).flatMap (fun w => w ++ [' ']) ++ tail) =
      .error .marleyError := by
  have : ∃ π : Parity, sign = π.toChar := by
    rcases hs with h | h
    · exact ⟨⟨true⟩, by simpa [Parity.toChar] using h⟩
    · exact ⟨⟨false⟩, by simpa [Parity.toChar] using h⟩
  obtain ⟨π, rfl⟩ := this
  rw [List.append_assoc, List.append_assoc, read_headerText f hf ni nf hni hnf Ex twoJ hJ,
    Event.readBody]
  by_cases h1 : ni < 2
  · rw [if_pos h1]
  by_cases h2 : nf < 2
  · rw [if_neg h1, if_pos h2]
  rw [if_neg h1, if_neg h2, Event.readParticles_space nl _ (by omega)]
  have cut := Particle.read_cut hf hp j hj tail ht
  change Particle.read f (((particleFields f p).take j).flatMap (fun w => w ++ [' ']) ++ tail) =
    none at cut
  by_cases hlen : ls.length < ni.toNat
  · rw [Event.readParticles_cut ls hf hls _ hlen _ cut]
  · -- the initial particles are complete, the final ones are not
    have e : ls = ls.take ni.toNat ++ ls.drop ni.toNat := (List.take_append_drop _ _).symm
    have e1 : Event.printParticles f ls = Event.printParticles f (ls.take ni.toNat) ++
        Event.printParticles f (ls.drop ni.toNat) := by
      rw [Event.printParticles, Event.printParticles, Event.printParticles, ← List.flatMap_append,
        List.take_append_drop]
    have htk : (ls.take ni.toNat).length = ni.toNat := by
      rw [List.length_take]; omega
    have hr := Event.readParticles_print hf (ls.take ni.toNat)
      (fun q hq => hls q (List.mem_of_mem_take hq)) (by intro h; rw [h] at htk; simp at htk; omega)
      (Event.printParticles f (ls.drop ni.toNat) ++
        (((particleFields f p).take j).flatMap (fun w => w ++ [' ']) ++ tail))
    rw [htk] at hr
    rw [e1, List.append_assoc, hr]
    dsimp only
    rw [Event.readParticles_space nl _ (by omega), Event.readParticles_cut (ls.drop ni.toNat) hf
      (fun q hq => hls q (List.mem_of_mem_drop hq)) _ (by rw [List.length_drop]; omega) _ cut]

example : Event.read ratFmt (headerText ratFmt 2 2 (3 : ℚ) 0 '-' ++
    Event.printParticles ratFmt (sampleEvent.initial ++ [⟨11, 1, 0, 0, 0, 1, -1⟩]) ++
    ((particleFields ratFmt ⟨22, 1, 0, 0, 1, 0, 0⟩).take 3).flatMap (fun w => w ++ [' ']) ++
    "oops".toList) = .error .marleyError :=
  C07_particle_list_cut_short ratFmt ratFmt_lawful 2 2 (by decide) (by decide) 3 0 (by decide) '-'
    (Or.inr rfl) _ (by simp [sampleEvent, Particle.Fits, intMin, intMax]) (by simp [sampleEvent])
    _ (by simp [Particle.Fits, intMin, intMax]) 3 (by decide) _
    ⟨[], "oops".toList, rfl, by simp, Or.inr ⟨'o', "ops".toList, rfl, by decide, by decide⟩⟩

/-- **C07.** For every text whatsoever: the only exception is `marley::Error`; if
the stream failed without an exception the event has no particles; and if the
stream is still good the event has exactly the announced numbers of particles,
at least two of each. -/
theorem C07_never_half_filled (f : DblFmt K) (s : Str) :
    (∀ x, Event.read f s = .error x → x = .marleyError) ∧
    (∀ e, Event.read f s = .ok (e, none) → e.initial = [] ∧ e.final = []) ∧
    (∀ e t, Event.read f s = .ok (e, some t) →
      2 ≤ e.initial.length ∧ 2 ≤ e.final.length ∧
      ∃ s1 s2, readInt s = some ((e.initial.length : Int), s1) ∧
        readInt s1 = some ((e.final.length : Int), s2)) := by
  rw [Event.read]
  cases h1 : readInt s with
  | none => simp [Event.cleared]
  | some r1 =>
    obtain ⟨ni, s1⟩ := r1
    dsimp only
    cases h2 : readInt s1 with
    | none => simp [Event.cleared]
    | some r2 =>
      obtain ⟨nf, s2⟩ := r2
      dsimp only
      cases h3 : f.get s2 with
      | none => simp [Event.cleared]
      | some r3 =>
        obtain ⟨Ex, s3⟩ := r3
        dsimp only
        cases h4 : readInt s3 with
        | none => simp
        | some r4 =>
          obtain ⟨twoJ, s4⟩ := r4
          dsimp only
          cases h5 : Parity.read s4 with
          | error x => simp [parity_read_exc _ _ h5]
          | ok r5 =>
            obtain ⟨π | π, s5⟩ := r5
            · simp
            · dsimp only
              rw [Event.readBody]
              by_cases g1 : ni < 2
              · simp [g1]
              by_cases g2 : nf < 2
              · simp [g1, g2]
              simp only [g1, g2, if_false]
              cases h6 : Event.readParticles f ni.toNat s5 with
              | error x => simp [Event.readParticles_exc _ _ _ h6]
              | ok r6 =>
                obtain ⟨li, s6⟩ := r6
                dsimp only
                cases h7 : Event.readParticles f nf.toNat s6 with
                | error x => simp [Event.readParticles_exc _ _ _ h7]
                | ok r7 =>
                  obtain ⟨lf, s7⟩ := r7
                  refine ⟨by simp, by simp, ?_⟩
                  intro e t he
                  cases he
                  have l1 := Event.readParticles_length _ _ _ _ h6
                  have l2 := Event.readParticles_length _ _ _ _ h7
                  refine ⟨by simp only [l1]; omega, by simp only [l2]; omega, s1, s2, ?_, ?_⟩
                  · simp only [l1, Option.some.injEq, Prod.mk.injEq, and_true]; omega
                  · rw [h2]; simp only [l2, Option.some.injEq, Prod.mk.injEq, and_true]; omega

example : ∃ e t, Event.read ratFmt (Event.print ratFmt sampleEvent) = .ok (e, some t) :=
  ⟨_, _, by
    have := C06_event_ascii_roundtrip ratFmt ratFmt_lawful sampleEvent sampleEvent_fits
      (by simp [sampleEvent]) (by simp [sampleEvent]) []
    simpa using this⟩

/-- **C07.** A stream at its end (or with only white space left) fails, and the
event is empty. -/
theorem C07_end_of_stream (f : DblFmt K) (ws : Str) (h : ∀ c ∈ ws, Json.isSpace c = true) :
    Event.read f ws = .ok (⟨[], [], 0, 0, ⟨true⟩⟩, none) := by
  have : readInt ws = none := by
    apply readInt_notNumber
    exact ⟨ws, [], by simp, h, Or.inl rfl⟩
  simp [Event.read, this, Event.cleared]

example : Event.read ratFmt "\n  ".toList = .ok (⟨[], [], 0, 0, ⟨true⟩⟩, none) :=
  C07_end_of_stream ratFmt _ (by decide)

end Marley.Props
