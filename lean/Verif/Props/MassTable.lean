import Verif.Model.MassTable
import Verif.Props.Utils
import Mathlib.Tactic.Ring
import Mathlib.Tactic.Linarith
import Mathlib.Tactic.NormNum
import Mathlib.Tactic.SplitIfs

/-!
# C58, C59, C60, C78: the mass table
-/

set_option autoImplicit false

namespace Marley.Props
open Marley Marley.Mass
open Marley.Json (Str JVal)

/-! ## C58 separation energies -/

theorem lookup_toMeV {t : Table} {Z A : Int} {th : Bool} {m : ℝ}
    (h : atomicMass t Z A th = .ok (some m)) :
    (lookup t Z A th = .ok (some m, false)) ∨
      ∃ x, lookup t Z A th = .ok (some x, true) ∧ m = x * microAmu := by
  unfold atomicMass at h
  cases hl : lookup t Z A th with
  | error e => rw [hl] at h; cases h
  | ok r =>
    rw [hl] at h
    obtain ⟨r, b⟩ := r
    cases b <;> cases r <;> simp_all [toMeV, Except.ok.injEq]

theorem particleMass_nonneg {t : Table} {id : Int} {m : ℝ} (h0 : 0 ≤ id)
    (h : particleMass t id = .ok m) : ∃ x, t.particle id = some x ∧ m = microAmu * x := by
  simp only [particleMass] at h
  rw [if_neg (by omega), if_neg (by omega)] at h
  cases hp : t.particle id with
  | none => rw [hp] at h; cases h
  | some x => rw [hp] at h; cases h; exact ⟨x, rfl, rfl⟩

/-- C58: a separation energy is the mass of the daughter atom plus the mass of
the fragment plus the masses of the fragment's electrons minus the mass of the
parent atom, all as reported in MeV, whichever of the atomic masses are measured
or estimated. -/
theorem C58_separation_energy {t : Table} {Z A pid : Int} {th : Bool} {mi mf mx me : ℝ}
    (hpid : 0 ≤ pid) (hi : atomicMass t Z A th = .ok (some mi))
    (hf : atomicMass t (Z - Pdg.getZ pid) (A - Pdg.getA pid) th = .ok (some mf))
    (hx : particleMass t pid = .ok mx) (he : particleMass t 11 = .ok me) :
    separationEnergy t Z A pid th = .ok (some (mf + mx + Pdg.getZ pid * me - mi)) := by
  obtain ⟨x, hx1, rfl⟩ := particleMass_nonneg hpid hx
  obtain ⟨e, he1, rfl⟩ := particleMass_nonneg (by decide) he
  simp only [separationEnergy, at', ELECTRON, he1, hx1]
  rcases lookup_toMeV hi with ei | ⟨ai, ei, rfl⟩ <;> rcases lookup_toMeV hf with ef | ⟨af, ef, rfl⟩ <;>
    rw [ei, ef] <;>
    simp only [Option.bind_some, Option.map_some, if_true, Bool.false_eq_true, if_false,
      Except.ok.injEq, Option.some.injEq] <;> ring

/-- C58 for the overload taking the codes of nucleus and fragment. -/
theorem C58_separation_energy_codes (t : Table) (nuc frag : Int) (th : Bool) :
    separationEnergyPid t nuc frag th =
      separationEnergy t (Pdg.getZ nuc) (Pdg.getA nuc) frag th := rfl

/-- C58: if estimates are not allowed and one of the atoms is not in the table,
the result is `marley::Error`. -/
theorem C58_estimates_not_allowed {t : Table} {Z A pid : Int} {mx me : ℝ}
    (hpid : 0 ≤ pid) (hx : particleMass t pid = .ok mx) (he : particleMass t 11 = .ok me)
    (h : t.atomic (Pdg.nucleusPid Z A) = none ∨
      t.atomic (Pdg.nucleusPid (Z - Pdg.getZ pid) (A - Pdg.getA pid)) = none) :
    separationEnergy t Z A pid false = .error .marleyError := by
  obtain ⟨x, hx1, rfl⟩ := particleMass_nonneg hpid hx
  obtain ⟨e, he1, rfl⟩ := particleMass_nonneg (by decide) he
  simp only [separationEnergy, at', ELECTRON, he1, hx1, lookup]
  rcases h with h | h
  · simp [h]
  · rw [h]
    cases t.atomic (Pdg.nucleusPid Z A) <;> simp

/-! ## C59 thresholds -/

/-- The atoms in the table have the codes of nuclei with at most 500 nucleons. -/
def NuclearCodes (t : Table) : Prop :=
  ∀ pid x, t.atomic pid = some x →
    ∃ Z A : Int, 0 ≤ Z ∧ 0 < A ∧ A ≤ 500 ∧ pid = 10000 * Z + 10 * A + 1000000000

theorem liquidDropMass_isSome {Z A : Int} (h : 0 < A) : ∃ m, liquidDropMass Z A = some m := by
  simp only [liquidDropMass, liquidDropExcess]
  rw [if_neg (by omega)]
  exact ⟨_, rfl⟩

theorem liquidDropMass_none {Z A : Int} (h : A ≤ 0) : liquidDropMass Z A = none := by
  simp only [liquidDropMass, liquidDropExcess]
  rw [if_pos h]; rfl

/-- With estimates every atom with nucleons has a mass. -/
theorem atomicMass_isSome (t : Table) (Z : Int) {A : Int} (h : 0 < A) :
    ∃ m, atomicMass t Z A true = .ok (some m) := by
  simp only [atomicMass, lookup]
  cases t.atomic (Pdg.nucleusPid Z A) with
  | some m => exact ⟨_, rfl⟩
  | none =>
    obtain ⟨m, hm⟩ := liquidDropMass_isSome (Z := Z) h
    exact ⟨m, by simp [hm, toMeV]⟩

/-- Without nucleons there is no mass. -/
theorem lookup_none {t : Table} (ht : NuclearCodes t) (Z : Int) {A : Int} (h : A ≤ 0)
    (h' : -500 < A) : lookup t Z A true = .ok (none, false) := by
  simp only [lookup]
  cases hl : t.atomic (Pdg.nucleusPid Z A) with
  | none => simp [liquidDropMass_none h]
  | some x =>
    obtain ⟨Z', A', h1, h2, h3, h4⟩ := ht _ _ hl
    simp only [Pdg.nucleusPid] at h4
    rw [if_neg (by omega), if_neg (by omega)] at h4
    omega

/-- A fragment that is not lighter than the nucleus has no separation energy. -/
theorem separation_none {t : Table} (ht : NuclearCodes t) {Z A pid : Int} {mx me : ℝ}
    (hpid : 0 ≤ pid) (hA : 0 < A) (hx : particleMass t pid = .ok mx)
    (he : particleMass t 11 = .ok me) (h1 : A ≤ Pdg.getA pid) (h2 : Pdg.getA pid ≤ 500) :
    separationEnergy t Z A pid true = .ok none := by
  obtain ⟨x, hx1, rfl⟩ := particleMass_nonneg hpid hx
  obtain ⟨e, he1, rfl⟩ := particleMass_nonneg (by decide) he
  simp only [separationEnergy, at', ELECTRON, he1, hx1]
  rw [lookup_none ht (Z - Pdg.getZ pid) (by omega) (by omega)]
  cases hl : lookup t Z A true with
  | ok r => obtain ⟨r, b⟩ := r; cases r <;> rfl
  | error e =>
    simp only [lookup] at hl
    cases hq : t.atomic (Pdg.nucleusPid Z A) <;> rw [hq] at hl <;> simp at hl

theorem thresholdLoop_spec {t : Table} {Z A : Int} (frags : List Int) (cur : ℝ)
    (h : ∀ f ∈ frags, ∃ s, separationEnergy t Z A f true = .ok s) :
    ∃ r, thresholdLoop t Z A cur frags = .ok r ∧ r ≤ cur ∧
      (∀ f ∈ frags, ∀ s, separationEnergy t Z A f true = .ok (some s) → r ≤ s) ∧
      (r = cur ∨ ∃ f ∈ frags, separationEnergy t Z A f true = .ok (some r)) := by
  induction frags generalizing cur with
  | nil => exact ⟨cur, rfl, le_refl _, by simp, .inl rfl⟩
  | cons f fs ih =>
    obtain ⟨s, hs⟩ := h f (by simp)
    have h' : ∀ f ∈ fs, ∃ s, separationEnergy t Z A f true = .ok s :=
      fun f hf => h f (by simp [hf])
    rw [thresholdLoop, hs]
    cases s with
    | none =>
      obtain ⟨r, h1, h2, h3, h4⟩ := ih cur h'
      refine ⟨r, h1, h2, ?_, ?_⟩
      · intro g hg s hgs
        rcases List.mem_cons.1 hg with rfl | hg
        · rw [hs] at hgs; cases hgs
        · exact h3 g hg s hgs
      · rcases h4 with h4 | ⟨g, hg, h4⟩
        · exact .inl h4
        · exact .inr ⟨g, by simp [hg], h4⟩
    | some s =>
      dsimp only
      obtain ⟨r, h1, h2, h3, h4⟩ := ih (if s < cur then s else cur) h'
      refine ⟨r, h1, ?_, ?_, ?_⟩
      · split_ifs at h2 with hlt <;> linarith
      · intro g hg s' hgs
        rcases List.mem_cons.1 hg with rfl | hg
        · rw [hs] at hgs; cases hgs
          split_ifs at h2 with hlt
          · exact h2
          · linarith [not_lt.1 hlt]
        · exact h3 g hg s' hgs
      · rcases h4 with h4 | ⟨g, hg, h4⟩
        · split_ifs at h4 with hlt
          · exact .inr ⟨f, by simp, by rw [hs, h4]⟩
          · exact .inl h4
        · exact .inr ⟨g, by simp [hg], h4⟩

/-- C59: when the masses of the fragments are known, every fragment lighter than
the nucleus has a separation energy, the unbound threshold is not above any of
these, and it is one of these (or the largest double, if there is no lighter
fragment with a smaller separation energy). -/
theorem C59_unbound_threshold {t : Table} (ht : NuclearCodes t) {frags : List Int} {Z A : Int}
    (hA : 0 < A) (he : ∃ me, particleMass t 11 = .ok me)
    (hfr : ∀ f ∈ frags, 0 ≤ f ∧ Pdg.getA f ≤ 500 ∧ ∃ mx, particleMass t f = .ok mx) :
    (∀ f ∈ frags, Pdg.getA f < A → ∃ s, separationEnergy t Z A f true = .ok (some s)) ∧
    ∃ r, unboundThreshold t frags Z A = .ok r ∧
      (∀ f ∈ frags, Pdg.getA f < A → ∀ s, separationEnergy t Z A f true = .ok (some s) → r ≤ s) ∧
      ((∃ f ∈ frags, Pdg.getA f < A ∧ separationEnergy t Z A f true = .ok (some r)) ∨
        (r = dblMax ∧ ∀ f ∈ frags, Pdg.getA f < A → ∀ s,
          separationEnergy t Z A f true = .ok (some s) → dblMax ≤ s)) := by
  obtain ⟨me, he⟩ := he
  have light : ∀ f ∈ frags, Pdg.getA f < A → ∃ s, separationEnergy t Z A f true = .ok (some s) := by
    intro f hf hl
    obtain ⟨h1, h2, mx, h3⟩ := hfr f hf
    obtain ⟨mi, hi⟩ := atomicMass_isSome t Z hA
    obtain ⟨mf, hmf⟩ := atomicMass_isSome t (Z - Pdg.getZ f) (A := A - Pdg.getA f) (by omega)
    exact ⟨_, C58_separation_energy h1 hi hmf h3 he⟩
  have heavy : ∀ f ∈ frags, ¬ Pdg.getA f < A → separationEnergy t Z A f true = .ok none := by
    intro f hf hl
    obtain ⟨h1, h2, mx, h3⟩ := hfr f hf
    exact separation_none ht h1 hA h3 he (not_lt.1 hl) h2
  refine ⟨light, ?_⟩
  obtain ⟨r, h1, h2, h3, h4⟩ := thresholdLoop_spec (t := t) (Z := Z) (A := A) frags dblMax (by
    intro f hf
    by_cases hl : Pdg.getA f < A
    · obtain ⟨s, hs⟩ := light f hf hl; exact ⟨_, hs⟩
    · exact ⟨_, heavy f hf hl⟩)
  refine ⟨r, h1, fun f hf _ => h3 f hf, ?_⟩
  rcases h4 with h4 | ⟨f, hf, h4⟩
  · exact .inr ⟨h4, fun f hf _ s hs => by rw [← h4]; exact h3 f hf s hs⟩
  · refine .inl ⟨f, hf, ?_, h4⟩
    by_contra hl
    rw [heavy f hf hl] at h4
    cases h4

/-- A fragment whose mass is not known makes the search fail with
`std::out_of_range`. -/
theorem C59_unknown_fragment (t : Table) (Z A f : Int) (fs : List Int)
    (h : t.particle f = none) : unboundThreshold t (f :: fs) Z A = .error .outOfRange := by
  rw [unboundThreshold, thresholdLoop, separationEnergy]
  simp only [at', ELECTRON, h]
  cases t.particle 11 <;> rfl

/-! ## C60 loading and lookups -/

/-- The element of the file gives the mass `x` (in micro-amu) for the code
`pdg`. -/
inductive Gives : JVal ℝ → Int → ℝ → Prop
  | decimal {m : List (Str × JVal ℝ)} {n : Int} {x : ℝ}
      (h1 : Json.mapFind m ['p', 'd', 'g'] = some (.int n))
      (h2 : Json.mapFind m ['m', 'a', 's', 's'] = some (.float x)) : Gives (.obj m) (Event.wrap32 n) x
  | integer {m : List (Str × JVal ℝ)} {n k : Int}
      (h1 : Json.mapFind m ['p', 'd', 'g'] = some (.int n))
      (h2 : Json.mapFind m ['m', 'a', 's', 's'] = some (.int k)) :
      Gives (.obj m) (Event.wrap32 n) (Json.longToDouble k)

/-- The value is a list of masses. -/
def MassList (j : JVal ℝ) : Prop :=
  ∃ l, j = .arr l ∧ l ≠ [] ∧ ∀ el ∈ l, ∃ pdg x, Gives el pdg x

/-- The member of the top level object with that name. -/
def Member (j : JVal ℝ) (key : String) (v : JVal ℝ) : Prop :=
  ∃ m, j = .obj m ∧ Json.mapFind m key.toList = some v

theorem assignOne_gives {el : JVal ℝ} {pdg : Int} {x : ℝ} (h : Gives el pdg x)
    (m : Int → Option ℝ) : assignOne m el = .ok (put m pdg x) := by
  cases h with
  | decimal h1 h2 =>
    have e1 : "pdg".toList = ['p', 'd', 'g'] := rfl
    have e2 : "mass".toList = ['m', 'a', 's', 's'] := rfl
    simp only [assignOne, Json.hasKey, Json.at?, e1, e2, h1, h2]
    simp [Json.toLong?, Event.toDouble?]
  | integer h1 h2 =>
    have e1 : "pdg".toList = ['p', 'd', 'g'] := rfl
    have e2 : "mass".toList = ['m', 'a', 's', 's'] := rfl
    simp only [assignOne, Json.hasKey, Json.at?, e1, e2, h1, h2]
    simp [Json.toLong?, Event.toDouble?]

theorem assignOne_error {el : JVal ℝ} (h : ¬ ∃ pdg x, Gives el pdg x) (m : Int → Option ℝ) :
    assignOne m el = .error .marleyError := by
  have e1 : "pdg".toList = ['p', 'd', 'g'] := rfl
  have e2 : "mass".toList = ['m', 'a', 's', 's'] := rfl
  cases el with
  | obj l =>
    simp only [assignOne, Json.hasKey, Json.at?, e1, e2]
    cases h1 : Json.mapFind l ['p', 'd', 'g'] with
    | none => simp
    | some v1 =>
      cases h2 : Json.mapFind l ['m', 'a', 's', 's'] with
      | none => simp
      | some v2 =>
        cases v1 <;> simp [Json.toLong?]
        next n =>
        cases v2 <;> simp [Event.toDouble?]
        · exact h ⟨_, _, .integer h1 h2⟩
        · exact h ⟨_, _, .decimal h1 h2⟩
  | _ => simp [assignOne, Json.hasKey]

theorem assignLoop_ok {l : List (JVal ℝ)} (h : ∀ el ∈ l, ∃ pdg x, Gives el pdg x)
    (m : Int → Option ℝ) : ∃ m', assignLoop m l = .ok m' := by
  induction l generalizing m with
  | nil => exact ⟨m, rfl⟩
  | cons el t ih =>
    obtain ⟨pdg, x, hg⟩ := h el (by simp)
    rw [assignLoop, assignOne_gives hg]
    exact ih (fun el hel => h el (by simp [hel])) _

theorem assignLoop_error {l : List (JVal ℝ)} (h : ¬ ∀ el ∈ l, ∃ pdg x, Gives el pdg x)
    (m : Int → Option ℝ) : assignLoop m l = .error .marleyError := by
  induction l generalizing m with
  | nil => simp at h
  | cons el t ih =>
    by_cases hg : ∃ pdg x, Gives el pdg x
    · obtain ⟨pdg, x, hg'⟩ := id hg
      rw [assignLoop, assignOne_gives hg']
      refine ih (fun h' => h ?_) _
      intro e he
      rcases List.mem_cons.1 he with rfl | he
      · exact hg
      · exact h' e he
    · rw [assignLoop, assignOne_error hg]

theorem assignMasses_ok {j : JVal ℝ} (h : MassList j) : ∃ m, assignMasses j = .ok m := by
  obtain ⟨l, rfl, h1, h2⟩ := h
  cases l with
  | nil => exact absurd rfl h1
  | cons a t => exact assignLoop_ok h2 _

theorem assignMasses_error {j : JVal ℝ} (h : ¬ MassList j) :
    assignMasses j = .error .marleyError := by
  cases j with
  | arr l =>
    cases l with
    | nil => rfl
    | cons a t =>
      exact assignLoop_error (fun h' => h ⟨_, rfl, by simp, h'⟩) _
  | _ => rfl

/-- Entries after which no other entry for the same code follows are the ones
in force. -/
theorem assignLoop_last {pre post : List (JVal ℝ)} {el : JVal ℝ} {pdg : Int} {x : ℝ}
    {m m' : Int → Option ℝ} (hg : Gives el pdg x) (hpost : ∀ e ∈ post, ∀ y, ¬ Gives e pdg y)
    (h : assignLoop m (pre ++ el :: post) = .ok m') : m' pdg = some x := by
  induction pre generalizing m with
  | cons a t ih =>
    rw [List.cons_append, assignLoop] at h
    cases ha : assignOne m a with
    | error e => rw [ha] at h; cases h
    | ok m1 => rw [ha] at h; exact ih h
  | nil =>
    rw [List.nil_append, assignLoop, assignOne_gives hg] at h
    dsimp only at h
    have hm : put m pdg x pdg = some x := by simp [put]
    generalize put m pdg x = m0 at h hm
    induction post generalizing m0 with
    | nil => cases h; exact hm
    | cons a t ih =>
      rw [assignLoop] at h
      by_cases hga : ∃ p y, Gives a p y
      · obtain ⟨p, y, hga⟩ := hga
        rw [assignOne_gives hga] at h
        refine ih (fun e he => hpost e (by simp [he])) _ h ?_
        rw [put, if_neg, hm]
        rintro rfl
        exact hpost a (by simp) y hga
      · rw [assignOne_error hga] at h; cases h

theorem assignLoop_absent {l : List (JVal ℝ)} {pdg : Int} {m m' : Int → Option ℝ}
    (hl : ∀ e ∈ l, ∀ y, ¬ Gives e pdg y) (h : assignLoop m l = .ok m') : m' pdg = m pdg := by
  induction l generalizing m with
  | nil => cases h; rfl
  | cons a t ih =>
    rw [assignLoop] at h
    by_cases hga : ∃ p y, Gives a p y
    · obtain ⟨p, y, hga⟩ := hga
      rw [assignOne_gives hga] at h
      rw [ih (fun e he => hl e (by simp [he])) h, put, if_neg]
      rintro rfl
      exact hl a (by simp) y hga
    · rw [assignOne_error hga] at h; cases h

theorem assignMasses_arr {l : List (JVal ℝ)} {m : Int → Option ℝ}
    (h : assignMasses (.arr l) = .ok m) : assignLoop (fun _ => none) l = .ok m := by
  cases l with
  | nil => cases h
  | cons a t => exact h

theorem hasKey_obj (m : List (Str × JVal ℝ)) (k : Str) :
    Json.hasKey (.obj m) k = (Json.mapFind m k).isSome := rfl

theorem at_obj {m : List (Str × JVal ℝ)} {k : Str} {v : JVal ℝ} (h : Json.mapFind m k = some v) :
    Json.at? (.obj m) k = .ok v := by rw [Json.at?, h]

/-- Loading in terms of the members of the top level object. -/
theorem ofJson_cases (m : List (Str × JVal ℝ)) :
    (∀ pj aj pm am, Json.mapFind m "particle_masses".toList = some pj →
      Json.mapFind m "atomic_masses".toList = some aj → assignMasses pj = .ok pm →
      assignMasses aj = .ok am → ofJson (.obj m) = .ok ⟨pm, am⟩) ∧
    ((∃ pj aj pm am, Json.mapFind m "particle_masses".toList = some pj ∧
      Json.mapFind m "atomic_masses".toList = some aj ∧ assignMasses pj = .ok pm ∧
      assignMasses aj = .ok am) ∨ ofJson (.obj m) = .error .marleyError) := by
  have err : ∀ j, (∃ m, assignMasses j = .ok m) ∨ assignMasses j = .error .marleyError := by
    intro j
    by_cases h : MassList j
    · exact .inl (assignMasses_ok h)
    · exact .inr (assignMasses_error h)
  constructor
  · intro pj aj pm am h1 h2 h3 h4
    unfold ofJson
    rw [hasKey_obj, hasKey_obj, at_obj h1, at_obj h2, h1, h2]
    simp only [Option.isSome_some, Bool.not_true, Bool.false_eq_true, if_false, h3, h4]
  · unfold ofJson
    rw [hasKey_obj, hasKey_obj]
    cases h1 : Json.mapFind m "particle_masses".toList with
    | none => right; simp
    | some pj =>
      rw [at_obj h1]
      rcases err pj with ⟨pm, h3⟩ | h3
      · cases h2 : Json.mapFind m "atomic_masses".toList with
        | none => right; simp [h3]
        | some aj =>
          rw [at_obj h2]
          rcases err aj with ⟨am, h4⟩ | h4
          · exact .inl ⟨pj, aj, pm, am, rfl, rfl, h3, h4⟩
          · right; simp [h3, h4]
      · right; simp [h3]

theorem ofJson_nonObj {j : JVal ℝ} (h : ∀ m, j ≠ .obj m) : ofJson j = .error .marleyError := by
  have : ∀ k, Json.hasKey j k = false := by
    intro k; cases j <;> first | rfl | exact absurd rfl (h _)
  simp [ofJson, this]

/-- What a table was loaded from. -/
theorem ofJson_ok {j : JVal ℝ} {t : Table} (h : ofJson j = .ok t) :
    ∃ pj aj, Member j "particle_masses" pj ∧ Member j "atomic_masses" aj ∧
      assignMasses pj = .ok t.particle ∧ assignMasses aj = .ok t.atomic := by
  by_cases hj : ∀ m, j ≠ .obj m
  · rw [ofJson_nonObj hj] at h; cases h
  · push Not at hj
    obtain ⟨m, rfl⟩ := hj
    obtain ⟨h1, ⟨pj, aj, pm, am, h2, h3, h4, h5⟩ | h2⟩ := ofJson_cases m
    · rw [h1 _ _ _ _ h2 h3 h4 h5] at h
      cases h
      exact ⟨pj, aj, ⟨m, rfl, h2⟩, ⟨m, rfl, h3⟩, h4, h5⟩
    · rw [h2] at h; cases h

/-- C60: a file is accepted exactly when it has the two lists of masses; any
other file is rejected with `marley::Error`. -/
theorem C60_accepted (j : JVal ℝ) :
    ((∃ t, ofJson j = .ok t) ↔ (∃ pj, Member j "particle_masses" pj ∧ MassList pj) ∧
      ∃ aj, Member j "atomic_masses" aj ∧ MassList aj) ∧
    ((¬ ∃ t, ofJson j = .ok t) → ofJson j = .error .marleyError) := by
  have list : ∀ {j m}, assignMasses j = .ok m → MassList j := by
    intro j m h
    by_contra hn
    rw [assignMasses_error hn] at h; cases h
  refine ⟨⟨?_, ?_⟩, ?_⟩
  · rintro ⟨t, ht⟩
    obtain ⟨pj, aj, h1, h2, h3, h4⟩ := ofJson_ok ht
    exact ⟨⟨pj, h1, list h3⟩, aj, h2, list h4⟩
  · rintro ⟨⟨pj, ⟨m, rfl, h1⟩, h2⟩, aj, ⟨m', e, h3⟩, h4⟩
    cases e
    obtain ⟨pm, h5⟩ := assignMasses_ok h2
    obtain ⟨am, h6⟩ := assignMasses_ok h4
    exact ⟨_, (ofJson_cases m).1 _ _ _ _ h1 h3 h5 h6⟩
  · intro h
    by_cases hj : ∀ m, j ≠ .obj m
    · exact ofJson_nonObj hj
    · push Not at hj
      obtain ⟨m, rfl⟩ := hj
      obtain ⟨h1, ⟨pj, aj, pm, am, h2, h3, h4, h5⟩ | h2⟩ := ofJson_cases m
      · exact absurd ⟨_, h1 _ _ _ _ h2 h3 h4 h5⟩ h
      · exact h2

/-- C60: each listed particle has the mass listed (last) for it, and so has its
antiparticle; particles that are not listed have no mass. -/
theorem C60_particles_partial {j : JVal ℝ} {t : Table} {l : List (JVal ℝ)}
    (h : ofJson j = .ok t) (hl : Member j "particle_masses" (.arr l)) :
    (∀ pre el post pdg x, l = pre ++ el :: post → Gives el pdg x →
      (∀ e ∈ post, ∀ y, ¬ Gives e pdg y) → 0 ≤ pdg → pdg < 2 ^ 31 →
      particleMass t pdg = .ok (microAmu * x) ∧ particleMass t (-pdg) = .ok (microAmu * x)) ∧
    (∀ pdg : Int, -2 ^ 31 < pdg → (∀ e ∈ l, ∀ y, ¬ Gives e |pdg| y) →
      particleMass t pdg = .error .outOfRange) ∧
    (∀ pdg, particleMass t (-pdg) = particleMass t pdg ∨ |pdg| = 2 ^ 31) := by
  obtain ⟨pj, aj, ⟨m, rfl, h1⟩, -, h3, -⟩ := ofJson_ok h
  obtain ⟨m', h4, h5⟩ := hl
  cases h4
  rw [h5] at h1
  cases h1
  have h3 := assignMasses_arr h3
  refine ⟨?_, ?_, ?_⟩
  · rintro pre el post pdg x rfl hg hpost h0 hlt
    have hx := assignLoop_last hg hpost h3
    simp only [particleMass]
    constructor
    · rw [if_neg (by omega), if_neg (by omega), hx]
    · rw [if_neg (by omega)]
      by_cases hz : pdg = 0
      · subst hz; simp [hx]
      · rw [if_pos (by omega)]; simp [hx]
  · intro pdg hgt habs
    have hx := assignLoop_absent habs h3
    simp only [particleMass]
    rw [if_neg (by omega)]
    have e : (if pdg < 0 then pdg * -1 else pdg) = |pdg| := by
      split_ifs with hneg
      · rw [abs_of_neg hneg]; ring
      · rw [abs_of_nonneg (by omega)]
    rw [e, hx]
  · intro pdg
    by_cases h31 : |pdg| = 2 ^ 31
    · exact .inr h31
    · left
      have : pdg ≠ -2147483648 ∧ -pdg ≠ -2147483648 := by
        constructor <;> · intro h; apply h31; rw [abs_eq (by norm_num)]; omega
      simp only [particleMass]
      rw [if_neg this.1, if_neg this.2]
      have e : (if -pdg < 0 then -pdg * -1 else -pdg) = if pdg < 0 then pdg * -1 else pdg := by
        split_ifs <;> omega
      rw [e]

/-- C60 does not hold for unknown particles: `std::out_of_range` is thrown, not
`marley::Error`. -/
theorem C60_unknown_particle_violated {j : JVal ℝ} {t : Table} {l : List (JVal ℝ)} {pdg : Int}
    (h : ofJson j = .ok t) (hl : Member j "particle_masses" (.arr l)) (hgt : -2 ^ 31 < pdg)
    (habs : ∀ e ∈ l, ∀ y, ¬ Gives e |pdg| y) :
    particleMass t pdg ≠ .error .marleyError := by
  rw [(C60_particles_partial h hl).2.1 pdg hgt habs]
  intro h; cases h

/-- C60: each listed atom has the mass listed for it, whether or not estimates
are allowed; other atoms have the estimate, or `marley::Error` if estimates are
not allowed. -/
theorem C60_atoms {j : JVal ℝ} {t : Table} {l : List (JVal ℝ)}
    (h : ofJson j = .ok t) (hl : Member j "atomic_masses" (.arr l)) :
    (∀ pre el post pdg x, l = pre ++ el :: post → Gives el pdg x →
      (∀ e ∈ post, ∀ y, ¬ Gives e pdg y) → ∀ th,
      atomicMassPid t pdg th = .ok (some (x * microAmu))) ∧
    (∀ pdg, (∀ e ∈ l, ∀ y, ¬ Gives e pdg y) →
      atomicMassPid t pdg true = .ok (liquidDropMass (Pdg.getZ pdg) (Pdg.getA pdg)) ∧
      atomicMassPid t pdg false = .error .marleyError) := by
  obtain ⟨pj, aj, -, ⟨m, rfl, h1⟩, -, h3⟩ := ofJson_ok h
  obtain ⟨m', h4, h5⟩ := hl
  cases h4
  rw [h5] at h1
  cases h1
  have h3 := assignMasses_arr h3
  constructor
  · rintro pre el post pdg x rfl hg hpost th
    have hx := assignLoop_last hg hpost h3
    simp [atomicMassPid, lookupPid, hx, toMeV]
  · intro pdg habs
    have hx := assignLoop_absent habs h3
    simp [atomicMassPid, lookupPid, hx, toMeV]

/-- C60: looking up an atom by its charge and mass number gives the same as
looking it up by its code, for every nucleus with two or more nucleons. -/
theorem C60_same_by_numbers_partial (t : Table) {Z A : Int} (hZ : 0 ≤ Z) (hZA : Z ≤ A)
    (h2 : 2 ≤ A) (hA : A < 1000) (th : Bool) :
    atomicMass t Z A th = atomicMassPid t (10000 * Z + 10 * A + 1000000000) th := by
  have e : Pdg.nucleusPid Z A = 10000 * Z + 10 * A + 1000000000 := by
    rw [Pdg.nucleusPid, if_neg (by omega), if_neg (by omega)]
  have hz : Pdg.getZ (10000 * Z + 10 * A + 1000000000) = Z := by
    rw [← e]; exact (C28_nucleus_code Z A hZ hZA hA).1
  have ha : Pdg.getA (10000 * Z + 10 * A + 1000000000) = A := by
    rw [← e]; exact (C28_nucleus_code Z A hZ hZA hA).2.1
  simp only [atomicMass, atomicMassPid, lookup, lookupPid, e, hz, ha]

theorem liquidDropMass_hydrogen :
    liquidDropMass 1 1 = some (4.51713 + microAmu * 1e6) := by
  have h1 : (1 : Int).tmod 2 = 1 := by decide
  have h0 : (1 - 1 : Int).tmod 2 = 0 := by decide
  simp only [liquidDropMass, liquidDropExcess]
  rw [if_neg (by omega)]
  simp only [h1, h0, Option.map_some, Option.some.injEq]
  norm_num

/-- C60 does not hold for hydrogen looked up by its numbers: the table has the
measured mass `x` under the code 1000010010, but the lookup asks for the code of
the proton and takes the estimate, which for the hydrogen mass of the data file
is off by more than 2 MeV. -/
theorem C60_hydrogen_violated {t : Table} {x : ℝ} (hH : t.atomic 1000010010 = some x)
    (hp : t.atomic 2212 = none) :
    atomicMassPid t 1000010010 true = .ok (some (x * microAmu)) ∧
    ∃ m, atomicMass t 1 1 true = .ok (some m) ∧
      (1007825 ≤ x → m + 2 < x * microAmu) := by
  have e : Pdg.nucleusPid 1 1 = 2212 := by decide
  refine ⟨by simp [atomicMassPid, lookupPid, hH, toMeV], 4.51713 + microAmu * 1e6, ?_, ?_⟩
  · simp only [atomicMass, lookup, e, hp, liquidDropMass_hydrogen]
    simp [toMeV]
  · intro hx
    have : 1007825 * microAmu ≤ x * microAmu := by
      apply mul_le_mul_of_nonneg_right hx
      norm_num [microAmu]
    refine lt_of_lt_of_le ?_ this
    norm_num [microAmu]

/-- A small table: electron, neutron, proton; hydrogen and deuterium. -/
noncomputable def smallTable : Table where
  particle pid := if pid = 11 then some 548.57990946 else if pid = 2112 then some 1008664.91585
    else if pid = 2212 then some 1007276.466812 else none
  atomic pid := if pid = 1000010010 then some 1007825.03223
    else if pid = 1000010020 then some 2014101.77812 else none

-- hypotheses of C58, C59, C60_hydrogen_violated, C78
example : NuclearCodes smallTable := by
  intro pid x h
  simp only [smallTable] at h
  split_ifs at h with h1 h2
  · exact ⟨1, 1, by omega, by omega, by omega, by omega⟩
  · exact ⟨1, 2, by omega, by omega, by omega, by omega⟩
example : ∃ me mn mp, particleMass smallTable 11 = .ok me ∧ particleMass smallTable 2112 = .ok mn ∧
    particleMass smallTable 2212 = .ok mp := by
  simp [particleMass, smallTable]
example : (∃ mi, atomicMass smallTable 1 2 false = .ok (some mi)) ∧
    ∃ mf, atomicMass smallTable (1 - Pdg.getZ 2212) (2 - Pdg.getA 2212) true = .ok (some mf) := by
  constructor
  · simp [atomicMass, lookup, smallTable, Pdg.nucleusPid, toMeV]
  · exact atomicMass_isSome _ _ (by decide)
example : smallTable.atomic 1000010010 = some 1007825.03223 ∧ smallTable.atomic 2212 = none ∧
    (1007825 : ℝ) ≤ 1007825.03223 := by
  norm_num [smallTable]
example : ∃ mH, atomicMassPid smallTable 1000010010 false = .ok (some mH) := by
  simp [atomicMassPid, lookupPid, smallTable, toMeV]
-- a file
example : ∃ t, ofJson (.obj [("atomic_masses".toList,
      .arr [.obj [("mass".toList, .float 1007825.03223), ("pdg".toList, .int 1000010010)]]),
    ("particle_masses".toList,
      .arr [.obj [("mass".toList, .float 548.57990946), ("pdg".toList, .int 11)]])]) = .ok t := by
  refine (C60_accepted _).1.2 ⟨⟨_, ⟨_, rfl, rfl⟩, _, rfl, by simp, ?_⟩,
    _, ⟨_, rfl, rfl⟩, _, rfl, by simp, ?_⟩
  · intro el hel
    rw [List.mem_singleton] at hel
    subst hel
    exact ⟨_, _, .decimal rfl rfl⟩
  · intro el hel
    rw [List.mem_singleton] at hel
    subst hel
    exact ⟨_, _, .decimal rfl rfl⟩

/-! ## C78 binding energies and mass excesses -/

/-- C78: the binding energy of a nucleus is the mass of its hydrogen atoms and
neutrons minus the mass of the atom, in MeV, for measured and estimated masses. -/
theorem C78_binding_energy {t : Table} {Z A : Int} {th : Bool} {mH mn m : ℝ}
    (hH : atomicMassPid t 1000010010 false = .ok (some mH))
    (hn : particleMass t 2112 = .ok mn) (hm : atomicMass t Z A th = .ok (some m)) :
    bindingEnergy t Z A th = .ok (some (Z * mH + (A - Z) * mn - m)) := by
  obtain ⟨n, hn1, rfl⟩ := particleMass_nonneg (by decide) hn
  cases hh : t.atomic 1000010010 with
  | none => simp [atomicMassPid, lookupPid, hh] at hH
  | some h =>
    simp [atomicMassPid, lookupPid, hh, toMeV] at hH
    subst hH
    simp only [bindingEnergy, at', Pdg.NEUTRON, hh, hn1]
    rcases lookup_toMeV hm with em | ⟨a, em, rfl⟩ <;> rw [em] <;>
      simp only [Option.map_some, if_true, Bool.false_eq_true, if_false, Except.ok.injEq,
        Option.some.injEq] <;> push_cast <;> ring

/-- C78: the mass excess is the mass of the atom minus the mass number times the
atomic mass unit; for estimates it is the liquid-drop formula itself. -/
theorem C78_mass_excess {t : Table} {Z A : Int} {th : Bool} {m : ℝ}
    (hm : atomicMass t Z A th = .ok (some m)) :
    massExcess t Z A th = .ok (some (m - A * (1e6 * microAmu))) ∧
      (t.atomic (Pdg.nucleusPid Z A) = none → massExcess t Z A true = .ok (liquidDropExcess Z A)) := by
  constructor
  · simp only [massExcess]
    rcases lookup_toMeV hm with em | ⟨a, em, rfl⟩ <;> rw [em] <;>
      simp only [Option.map_some, if_true, Bool.false_eq_true, if_false, Except.ok.injEq,
        Option.some.injEq] <;> ring
  · intro hn
    simp only [massExcess, lookup, hn, if_true, liquidDropMass, Option.map_map]
    cases liquidDropExcess Z A with
    | none => rfl
    | some y =>
      simp only [Option.map_some, Function.comp, Bool.false_eq_true, if_false, Except.ok.injEq,
        Option.some.injEq]
      ring

end Marley.Props
