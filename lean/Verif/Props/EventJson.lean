import Verif.Lemmas.Event
import Verif.Props.EventAscii

/-!
# C11: the JSON form of events

`ofLong` is the conversion of a `long` to a `double`, used by the reader when a
number was written without decimal point; it is arbitrary here.
-/

set_option autoImplicit false

namespace Marley.Props
open Marley Marley.Event Json

variable {K : Type}

/-! ## Specification: what a well-formed event object is -/

/-- A JSON number. -/
def IsNumber : JVal K → Prop
  | .float _ => True
  | .int _ => True
  | _ => False

/-- A JSON integer. -/
def IsInteger : JVal K → Prop
  | .int _ => True
  | _ => False

/-- The object `m` has key `k` with a value satisfying `P`. -/
def Has (m : List (Str × JVal K)) (k : String) (P : JVal K → Prop) : Prop :=
  ∃ v, m.lookup k.toList = some v ∧ P v

/-- A JSON object with the members of a particle. -/
def IsParticle (v : JVal K) : Prop :=
  ∃ m, v = .obj m ∧ Has m "pdg" IsInteger ∧ Has m "charge" IsInteger ∧ Has m "E" IsNumber ∧
    Has m "px" IsNumber ∧ Has m "py" IsNumber ∧ Has m "pz" IsNumber ∧ Has m "mass" IsNumber

/-- A JSON array of particle objects. -/
def IsParticleArray (v : JVal K) : Prop := ∃ l, v = .arr l ∧ ∀ p ∈ l, IsParticle p

/-- A JSON value with the members of an event. -/
def IsEvent (v : JVal K) : Prop :=
  ∃ m, v = .obj m ∧ Has m "Ex" IsNumber ∧ Has m "twoJ" IsInteger ∧ Has m "parity" IsInteger ∧
    Has m "initial_particles" IsParticleArray ∧ Has m "final_particles" IsParticleArray

/-! ## Round trip -/

theorem wrap32_id {n : Int} (h : intMin ≤ n ∧ n ≤ intMax) : wrap32 n = n := by
  obtain ⟨h1, h2⟩ := h
  simp only [intMin, intMax] at h1 h2
  simp only [wrap32]
  omega

theorem particle_json_roundtrip (ofLong : Int → K) (p : Particle K) (h : p.Fits) :
    particleFromJson ofLong (particleToJson p) = .ok p := by
  obtain ⟨h1, h2⟩ := h
  have e1 := wrap32_id h1
  have e2 := wrap32_id h2
  have key : ∀ (a b : JVal K) (c d e f g : JVal K),
      objOf [("pdg".toList, a), ("E".toList, b), ("px".toList, c), ("py".toList, d),
        ("pz".toList, e), ("mass".toList, f), ("charge".toList, g)] =
      .obj [("E".toList, b), ("charge".toList, g), ("mass".toList, f), ("pdg".toList, a),
        ("px".toList, c), ("py".toList, d), ("pz".toList, e)] := by
    intro a b c d e f g; rfl
  rw [particleToJson, key]
  simp [particleFromJson, readJsonInteger, readJsonDouble, hasKey, at?, mapFind, toLong?,
    toDouble?, bind, Except.bind, pure, Except.pure, e1, e2]

theorem particles_json_roundtrip (ofLong : Int → K) (l : List (Particle K))
    (h : ∀ p ∈ l, p.Fits) : particlesFromJson ofLong (l.map particleToJson) = .ok l := by
  induction l with
  | nil => rfl
  | cons p l ih =>
    have e : ∃ m, particleToJson p = .obj m := ⟨_, rfl⟩
    obtain ⟨m, hm⟩ := e
    have hp := particle_json_roundtrip ofLong p (h p (by simp))
    rw [hm] at hp
    rw [List.map_cons, hm, particlesFromJson, hp]
    simp [ih (fun q hq => h q (by simp [hq]))]

/-- **C11**, first half: `from_json(to_json(e))` gives back `e`, for every event
(whose integers fit in an `int`, as they do in the program). -/
theorem C11_event_json_roundtrip (ofLong : Int → K) (e : Event K) (h : e.Fits) :
    fromJson ofLong (toJson e) = .ok e := by
  obtain ⟨f1, f2, f3, -⟩ := h
  have key : ∀ (a b : JVal K) (c d e : JVal K),
      objOf [("Ex".toList, a), ("twoJ".toList, b), ("parity".toList, c),
        ("initial_particles".toList, d), ("final_particles".toList, e)] =
      .obj [("Ex".toList, a), ("final_particles".toList, e), ("initial_particles".toList, d),
        ("parity".toList, c), ("twoJ".toList, b)] := by
    intro a b c d e; rfl
  rw [toJson, key]
  have i1 := particles_json_roundtrip ofLong e.initial f1
  have i2 := particles_json_roundtrip ofLong e.final f2
  have e1 := wrap32_id f3
  have e2 : Parity.assignInt ⟨true⟩ (wrap32 e.parity.toInt) = .ok e.parity := by
    rcases e.parity with ⟨b⟩; cases b <;> decide
  simp [fromJson, readJsonInteger, readJsonDouble, parityFromJson, arrayFromJson, hasKey, at?,
    mapFind, toLong?, toDouble?, bind, Except.bind, pure, Except.pure, e1, e2, i1, i2]

example : fromJson (fun n => (n : ℚ)) (toJson sampleEvent) = .ok sampleEvent :=
  C11_event_json_roundtrip _ _ sampleEvent_fits

/-! ## Malformed objects -/

theorem readJsonDouble_ok {ofLong : Int → K} {k : String} {m : List (Str × JVal K)} {x : K}
    (h : readJsonDouble ofLong k.toList (.obj m) = .ok x) : Has m k IsNumber := by
  simp only [readJsonDouble, hasKey, at?, mapFind_eq_lookup] at h
  cases hv : m.lookup k.toList with
  | none => simp [hv] at h
  | some v =>
    refine ⟨v, hv, ?_⟩
    cases v <;> simp_all [toDouble?, IsNumber]

theorem readJsonInteger_ok {k : String} {m : List (Str × JVal K)} {x : Int}
    (h : readJsonInteger k.toList (.obj m) = .ok x) : Has m k IsInteger := by
  simp only [readJsonInteger, hasKey, at?, mapFind_eq_lookup] at h
  cases hv : m.lookup k.toList with
  | none => simp [hv] at h
  | some v =>
    refine ⟨v, hv, ?_⟩
    cases v <;> simp_all [toLong?, IsInteger]

theorem readJsonDouble_error {ofLong : Int → K} {k : Str} {j : JVal K} {x : Exc}
    (h : readJsonDouble ofLong k j = .error x) : x = .marleyError := by
  cases j <;> simp only [readJsonDouble, hasKey, at?] at h <;> try (simp at h; exact h.symm)
  next m =>
    cases hv : mapFind m k with
    | none => simp [hv] at h; exact h.symm
    | some v => cases v <;> simp_all [toDouble?]

theorem readJsonInteger_error {k : Str} {j : JVal K} {x : Exc}
    (h : readJsonInteger k j = .error x) : x = .marleyError := by
  cases j <;> simp only [readJsonInteger, hasKey, at?] at h <;> try (simp at h; exact h.symm)
  next m =>
    cases hv : mapFind m k with
    | none => simp [hv] at h; exact h.symm
    | some v => cases v <;> simp_all [toLong?]

theorem arrayFromJson_error {k : Str} {j : JVal K} {x : Exc}
    (h : arrayFromJson k j = .error x) : x = .marleyError := by
  cases j <;> simp only [arrayFromJson, hasKey, at?] at h <;> try (simp at h; exact h.symm)
  next m =>
    cases hv : mapFind m k with
    | none => simp [hv] at h; exact h.symm
    | some v => cases v <;> simp_all

theorem arrayFromJson_ok {k : String} {m : List (Str × JVal K)} {l : List (JVal K)}
    (h : arrayFromJson k.toList (.obj m) = .ok l) : m.lookup k.toList = some (.arr l) := by
  simp only [arrayFromJson, hasKey, at?, mapFind_eq_lookup] at h
  cases hv : m.lookup k.toList with
  | none => simp [hv] at h
  | some v => cases v <;> simp_all

theorem particleFromJson_ok {ofLong : Int → K} {m : List (Str × JVal K)} {p : Particle K}
    (h : particleFromJson ofLong (.obj m) = .ok p) : IsParticle (.obj m) := by
  simp only [particleFromJson, bind, Except.bind] at h
  split at h
  · cases h
  next e1 =>
  split at h
  · cases h
  next e2 =>
  split at h
  · cases h
  next e3 =>
  split at h
  · cases h
  next e4 =>
  split at h
  · cases h
  next e5 =>
  split at h
  · cases h
  next e6 =>
  split at h
  · cases h
  next e7 =>
  exact ⟨m, rfl, readJsonInteger_ok e1, readJsonInteger_ok e2, readJsonDouble_ok e3,
    readJsonDouble_ok e4, readJsonDouble_ok e5, readJsonDouble_ok e6, readJsonDouble_ok e7⟩

theorem particleFromJson_error {ofLong : Int → K} {j : JVal K} {x : Exc}
    (h : particleFromJson ofLong j = .error x) : x = .marleyError := by
  simp only [particleFromJson, bind, Except.bind] at h
  split at h
  next e1 => cases h; exact readJsonInteger_error e1
  split at h
  next e1 => cases h; exact readJsonInteger_error e1
  split at h
  next e1 => cases h; exact readJsonDouble_error e1
  split at h
  next e1 => cases h; exact readJsonDouble_error e1
  split at h
  next e1 => cases h; exact readJsonDouble_error e1
  split at h
  next e1 => cases h; exact readJsonDouble_error e1
  split at h
  next e1 => cases h; exact readJsonDouble_error e1
  cases h

theorem particlesFromJson_ok {ofLong : Int → K} (l : List (JVal K)) {ps : List (Particle K)}
    (h : particlesFromJson ofLong l = .ok ps) : ∀ v ∈ l, IsParticle v := by
  induction l generalizing ps with
  | nil => simp
  | cons j l ih =>
    simp only [particlesFromJson] at h
    split at h
    next m =>
      split at h
      · cases h
      next p e1 =>
      split at h
      · cases h
      next ps' e2 =>
      intro v hv
      rcases List.mem_cons.1 hv with rfl | hv
      · exact particleFromJson_ok e1
      · exact ih e2 v hv
    · cases h

theorem particlesFromJson_error {ofLong : Int → K} (l : List (JVal K)) {x : Exc}
    (h : particlesFromJson ofLong l = .error x) : x = .marleyError := by
  induction l generalizing x with
  | nil => cases h
  | cons j l ih =>
    simp only [particlesFromJson] at h
    split at h
    next m =>
      split at h
      next e1 => cases h; exact particleFromJson_error e1
      split at h
      next e1 => cases h; exact ih e1
      cases h
    · cases h; rfl

theorem parityFromJson_ok {m : List (Str × JVal K)} {π : Parity}
    (h : parityFromJson (.obj m) = .ok π) : Has m "parity" IsInteger := by
  simp only [parityFromJson, at?, mapFind_eq_lookup] at h
  cases hv : m.lookup "parity".toList with
  | none => rw [hv] at h; cases h
  | some v =>
    refine ⟨v, hv, ?_⟩
    rw [hv] at h
    cases v <;> first | trivial | cases h

/-- **C11**, second half: a value that lacks a required key or has a value of the
wrong type is never accepted. -/
theorem C11_malformed_rejected (ofLong : Int → K) (v : JVal K) (h : ¬ IsEvent v) :
    ∃ x, fromJson ofLong v = .error x := by
  cases hr : fromJson ofLong v with
  | error x => exact ⟨x, rfl⟩
  | ok ev =>
    exfalso; apply h
    cases v with
    | obj m =>
      simp only [fromJson, bind, Except.bind] at hr
      split at hr
      · cases hr
      next e1 =>
      split at hr
      · cases hr
      next e2 =>
      split at hr
      · cases hr
      next e3 =>
      split at hr
      · cases hr
      next e4 =>
      split at hr
      · cases hr
      next e5 =>
      split at hr
      · cases hr
      next e6 =>
      split at hr
      · cases hr
      next e7 =>
      exact ⟨m, rfl, readJsonDouble_ok e1, readJsonInteger_ok e2, parityFromJson_ok e3,
        ⟨_, arrayFromJson_ok e4, _, rfl, particlesFromJson_ok _ e5⟩,
        ⟨_, arrayFromJson_ok e6, _, rfl, particlesFromJson_ok _ e7⟩⟩
    | _ => simp [fromJson, readJsonDouble, hasKey, bind, Except.bind] at hr

example : ¬ IsEvent (K := ℚ) (.obj [("Ex".toList, .str "x".toList)]) := by
  rintro ⟨m, hm, ⟨v, hv, hn⟩, -⟩
  cases hm
  simp [List.lookup] at hv
  subst hv
  exact hn

/-- **C11**, second half, partial: the exception is `marley::Error` whenever the
key "parity" is present.  (Full claim: always.) -/
theorem C11_error_kind_partial (ofLong : Int → K) (m : List (Str × JVal K)) (x : Exc)
    (hp : ∃ v, m.lookup "parity".toList = some v)
    (h : fromJson ofLong (.obj m) = .error x) : x = .marleyError := by
  simp only [fromJson, bind, Except.bind] at h
  split at h
  next e1 => cases h; exact readJsonDouble_error e1
  split at h
  next e1 => cases h; exact readJsonInteger_error e1
  split at h
  next e1 =>
    cases h
    obtain ⟨v, hv⟩ := hp
    simp only [parityFromJson, at?, mapFind_eq_lookup, hv] at e1
    split at e1
    next e2 =>
      cases e1
      simp only [Parity.assignInt] at e2
      split_ifs at e2
      cases e2; rfl
    split at e1 <;> cases e1
    rfl
  split at h
  next e1 => cases h; exact arrayFromJson_error e1
  split at h
  next e1 => cases h; exact particlesFromJson_error _ e1
  split at h
  next e1 => cases h; exact arrayFromJson_error e1
  split at h
  next e1 => cases h; exact particlesFromJson_error _ e1
  cases h

example : fromJson (fun n => (n : ℚ)) (.obj [("Ex".toList, .float 1), ("parity".toList, .int 1)]) =
    .error .marleyError := rfl

/-- **C11** is false for the key "parity": with valid excitation energy and spin
but without that key, the exception is `std::out_of_range`, which is not a
`marley::Error`. -/
theorem C11_missing_parity_fails (ofLong : Int → K) (m : List (Str × JVal K))
    (h1 : Has m "Ex" IsNumber) (h2 : Has m "twoJ" IsInteger)
    (h3 : m.lookup "parity".toList = none) :
    fromJson ofLong (.obj m) = .error .outOfRange := by
  obtain ⟨v, hv, hn⟩ := h1
  obtain ⟨w, hw, hi⟩ := h2
  have a : ∃ x, toDouble? ofLong v = some x := by cases v <;> simp_all [IsNumber, toDouble?]
  have b : ∃ x, toLong? w = some x := by cases w <;> simp_all [IsInteger, toLong?]
  obtain ⟨x, hx⟩ := a
  obtain ⟨y, hy⟩ := b
  have r1 : readJsonDouble ofLong "Ex".toList (.obj m) = .ok x := by
    simp only [readJsonDouble, hasKey, at?, mapFind_eq_lookup, hv, hx]; rfl
  have r2 : readJsonInteger "twoJ".toList (.obj m) = .ok y := by
    simp only [readJsonInteger, hasKey, at?, mapFind_eq_lookup, hw, hy]; rfl
  have r3 : parityFromJson (.obj m) = .error .outOfRange := by
    simp only [parityFromJson, at?, mapFind_eq_lookup, h3]
  rw [fromJson, r1, r2, r3]
  rfl

example : fromJson (fun n => (n : ℚ)) (.obj [("Ex".toList, .float 1), ("twoJ".toList, .int 2)]) =
    .error .outOfRange :=
  C11_missing_parity_fails _ _ ⟨_, rfl, trivial⟩ ⟨_, rfl, trivial⟩ rfl

end Marley.Props
