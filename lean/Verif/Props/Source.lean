import Verif.Lemmas.Source
import Verif.Props.Grid
import Mathlib.Analysis.SpecialFunctions.Integrals.Basic

/-!
# C43, C44: neutrino sources

Specification.  The six neutrino species have the codes ±12, ±14 and ±16 (Particle Data
Group).  `Built s` says that `s` is what some constructor of a source class made.
-/

set_option autoImplicit false

namespace Marley.Props
open Marley Marley.Source Marley.Gen Marley.Sampling
open Marley.Grid (Interp Extrap Points Sorted Increasing)

/-- The six neutrino species. -/
def Neutrino (pdg : Int) : Prop :=
  pdg = 12 ∨ pdg = -12 ∨ pdg = 14 ∨ pdg = -14 ∨ pdg = 16 ∨ pdg = -16

theorem allowed_iff (pdg : Int) : allowed pdg = true ↔ Neutrino pdg := by
  simp [allowed, pids, Neutrino]

/-! ## C43 -/

theorem mMu_pos : 0 < mMu := by unfold mMu; norm_num

/-- The muon mass used agrees with its measured value, 105.6583755 MeV, to 1 eV. -/
theorem C43_mass : |mMu - 105.6583755| < 1e-5 := by
  unfold mMu; rw [abs_lt]; constructor <;> norm_num

/-- C43, construction: exactly electron and muon (anti)neutrinos are accepted; every other
code is rejected with `marley::Error`. -/
theorem C43_species (pid : Int) :
    ((pid = 12 ∨ pid = -12 ∨ pid = 14 ∨ pid = -14) → mkDecayAtRest pid = .ok ⟨pid, .decayAtRest⟩) ∧
    (¬ (pid = 12 ∨ pid = -12 ∨ pid = 14 ∨ pid = -14) →
      mkDecayAtRest pid = .error .marleyError) := by
  constructor
  · rintro (rfl | rfl | rfl | rfl) <;> rfl
  · intro h
    unfold mkDecayAtRest
    by_cases ha : allowed pid = true
    · rw [if_pos ha, if_pos]
      rw [allowed_iff] at ha
      unfold Neutrino at ha
      omega
    · rw [if_neg ha]

/-- The spectrum of electron neutrinos from muons at rest, as a density in
`x = 2 E / m`. -/
noncomputable def michelE (x : ℝ) : ℝ := 12 * x ^ 2 * (1 - x)

/-- The spectrum of muon neutrinos from muons at rest, as a density in `x = 2 E / m`. -/
noncomputable def michelMu (x : ℝ) : ℝ := 2 * x ^ 2 * (3 - 2 * x)

/-- C43, the density: the Michel spectrum of the flavour between 0 and half the muon mass, and
zero elsewhere. -/
theorem C43_spectra {pid : Int} {s : Source} (e : mkDecayAtRest pid = .ok s) (E : ℝ) :
    s.pid = pid ∧ s.pdf E = .ok (some (if 0 ≤ E ∧ E ≤ mMu / 2 then
      (if pid = 12 ∨ pid = -12 then michelE (2 * E / mMu) else michelMu (2 * E / mMu)) * (2 / mMu)
      else 0)) := by
  have hm := mMu_pos.ne'
  by_cases hp : pid = 12 ∨ pid = -12 ∨ pid = 14 ∨ pid = -14
  · rw [(C43_species pid).1 hp] at e
    cases e
    refine ⟨rfl, ?_⟩
    by_cases hE : 0 ≤ E ∧ E ≤ mMu / 2
    · have hn : ¬ (E < 0 ∨ E > mMu / 2) := by
        rintro (h | h)
        · linarith [hE.1]
        · linarith [hE.2]
      simp only [Source.pdf, if_neg hn, if_pos hE]
      by_cases h12 : pid = 12 ∨ pid = -12
      · have : pid.natAbs = 12 := by omega
        rw [if_pos this, if_pos h12]
        congr 2
        unfold michelE
        field_simp
        ring
      · have : pid.natAbs ≠ 12 := by omega
        rw [if_neg this, if_neg h12]
        congr 2
        unfold michelMu
        field_simp
        ring
    · have hn : E < 0 ∨ E > mMu / 2 := by
        by_contra h
        push Not at h
        exact hE h
      simp only [Source.pdf, if_pos hn, if_neg hE]
  · rw [(C43_species pid).2 hp] at e
    cases e

theorem integral_cubic (c a b : ℝ) :
    ∫ x in (0 : ℝ)..c, (a * x ^ 2 - b * x ^ 3) = a * c ^ 3 / 3 - b * c ^ 4 / 4 := by
  rw [intervalIntegral.integral_sub, intervalIntegral.integral_const_mul,
    intervalIntegral.integral_const_mul, integral_pow, integral_pow]
  · norm_num; ring
  · exact (continuous_const.mul (continuous_pow 2)).intervalIntegrable _ _
  · exact (continuous_const.mul (continuous_pow 3)).intervalIntegrable _ _

/-- **C43**.  For each accepted species the density is a number at every energy, nowhere
negative, zero outside `[0, m/2]`, and integrates to one. -/
theorem C43_density {pid : Int} {s : Source} (e : mkDecayAtRest pid = .ok s) :
    ∃ f : ℝ → ℝ, (∀ E, s.pdf E = .ok (some (f E))) ∧ (∀ E, 0 ≤ f E) ∧
      (∀ E, E < 0 ∨ mMu / 2 < E → f E = 0) ∧ ∫ E, f E = 1 := by
  have hm := mMu_pos
  refine ⟨_, fun E => (C43_spectra e E).2, ?_, ?_, ?_⟩
  · intro E
    by_cases hE : 0 ≤ E ∧ E ≤ mMu / 2
    · rw [if_pos hE]
      have hx0 : 0 ≤ 2 * E / mMu := div_nonneg (by linarith [hE.1]) hm.le
      have hx1 : 2 * E / mMu ≤ 1 := by rw [div_le_one hm]; linarith [hE.2]
      apply mul_nonneg _ (by positivity)
      split_ifs
      · unfold michelE
        exact mul_nonneg (by positivity) (by linarith)
      · unfold michelMu
        exact mul_nonneg (by positivity) (by linarith)
    · rw [if_neg hE]
  · rintro E (h | h)
    · exact if_neg (fun hE => by linarith [hE.1])
    · exact if_neg (fun hE => by linarith [hE.2])
  · have key : ∀ F : ℝ → ℝ, ∫ E, (if 0 ≤ E ∧ E ≤ mMu / 2 then F E else 0)
        = ∫ E in (0 : ℝ)..(mMu / 2), F E := by
      intro F
      rw [intervalIntegral.integral_of_le (by positivity), ← MeasureTheory.integral_Icc_eq_integral_Ioc,
        ← MeasureTheory.integral_indicator measurableSet_Icc]
      congr 1
      funext E
      simp [Set.indicator]
    rw [key]
    by_cases h12 : pid = 12 ∨ pid = -12
    · simp only [if_pos h12]
      have : (fun E : ℝ => michelE (2 * E / mMu) * (2 / mMu))
          = fun E => (96 / mMu ^ 3) * E ^ 2 - (192 / mMu ^ 4) * E ^ 3 := by
        funext E; unfold michelE; field_simp; ring
      rw [this, integral_cubic]
      field_simp
      norm_num
    · simp only [if_neg h12]
      have : (fun E : ℝ => michelMu (2 * E / mMu) * (2 / mMu))
          = fun E => (48 / mMu ^ 3) * E ^ 2 - (64 / mMu ^ 4) * E ^ 3 := by
        funext E; unfold michelMu; field_simp; ring
      rw [this, integral_cubic]
      field_simp
      norm_num

/-- Both flavours can be made. -/
example : mkDecayAtRest 12 = .ok ⟨12, .decayAtRest⟩ ∧ mkDecayAtRest (-14) = .ok ⟨-14, .decayAtRest⟩ ∧
    mkDecayAtRest 16 = .error .marleyError ∧ mkDecayAtRest 11 = .error .marleyError := by
  refine ⟨rfl, rfl, rfl, rfl⟩

/-! ## C44 -/

/-- What the constructors of source classes make. -/
inductive Built : Source → Prop
  | mono {pid E s} : mkMono pid E = .ok s → Built s
  | fermiDirac {pid a b T eta s} : mkFermiDirac pid a b T eta = .ok s → Built s
  | betaFit {pid a b m beta s} : mkBetaFit pid a b m beta = .ok s → Built s
  | function {pid a b f s} : mkFunction pid a b f = .ok s → Built s
  | decayAtRest {pid s} : mkDecayAtRest pid = .ok s → Built s
  | grid {pid g s} : mkGrid pid g = .ok s → Built s
  | vectors {pid Es ys m s} : mkGridVectors pid Es ys m = .ok s → Built s

/-- A constructor applied to a code that is not a neutrino's throws `marley::Error`. -/
theorem C44_not_neutrino {pid : Int} (h : ¬ Neutrino pid) (E a b T eta m beta : ℝ)
    (f : ℝ → Option ℝ) (g : Grid.Grid) (Es ys : List ℝ) (r : Interp) :
    mkMono pid E = .error .marleyError ∧ mkFermiDirac pid a b T eta = .error .marleyError ∧
    mkBetaFit pid a b m beta = .error .marleyError ∧ mkFunction pid a b f = .error .marleyError ∧
    mkDecayAtRest pid = .error .marleyError ∧ mkGrid pid g = .error .marleyError ∧
    mkGridVectors pid Es ys r = .error .marleyError := by
  have ha : ¬ allowed pid = true := by rwa [allowed_iff]
  simp [mkMono, mkFermiDirac, mkBetaFit, mkFunction, mkDecayAtRest, mkGrid, mkGridVectors, ha]

theorem mkGrid_pid {pid : Int} {g : Grid.Grid} {s : Source} (e : mkGrid pid g = .ok s) :
    allowed pid = true ∧ s.pid = pid := by
  unfold mkGrid at e
  split_ifs at e with h
  refine ⟨h, ?_⟩
  cases hc : checkForErrors g with
  | error _ => rw [hc] at e; cases e
  | ok g' => rw [hc] at e; cases e; rfl

/-- **C44**, species: every source that was made produces one of the six neutrino species. -/
theorem C44_species {s : Source} (h : Built s) : Neutrino s.pid := by
  rw [← allowed_iff]
  cases h with
  | mono e => unfold mkMono at e; split_ifs at e with h; cases e; exact h
  | fermiDirac e => unfold mkFermiDirac at e; split_ifs at e with h; cases e; exact h
  | betaFit e => unfold mkBetaFit at e; split_ifs at e with h; cases e; exact h
  | function e => unfold mkFunction at e; split_ifs at e with h; cases e; exact h
  | decayAtRest e => unfold mkDecayAtRest at e; split_ifs at e with h; cases e; exact h
  | grid e => have := mkGrid_pid e; rw [this.2]; exact this.1
  | vectors e =>
    unfold mkGridVectors at e
    split_ifs at e with h
    cases hg : Grid.ofVectors _ _ _ _ with
    | error _ => rw [hg] at e; cases e
    | ok g => rw [hg] at e; have := mkGrid_pid e; rw [this.2]; exact this.1

/-- **C44**, tables: for a neutrino code, a grid is accepted exactly when it has at least two
points, no negative energy, no negative density, and a positive sum of densities; otherwise
the constructor throws `marley::Error`. -/
theorem C44_table_accepted {pid : Int} (hp : Neutrino pid) (g : Grid.Grid) :
    ((2 ≤ g.points.length ∧ (∀ p ∈ g.points, 0 ≤ p.1 ∧ 0 ≤ p.2) ∧
        0 < (g.points.map Prod.snd).sum) ↔ ∃ s, mkGrid pid g = .ok s) ∧
    ((∃ s, mkGrid pid g = .ok s) ∨ mkGrid pid g = .error .marleyError) := by
  have ha : allowed pid = true := (allowed_iff pid).2 hp
  unfold mkGrid checkForErrors
  rw [if_pos ha]
  by_cases h2 : g.points.length < 2
  · rw [if_pos h2]
    exact ⟨⟨fun h => by omega, by simp⟩, .inr rfl⟩
  rw [if_neg h2]
  rcases checkLoop_spec g.points with ⟨h, e⟩ | ⟨⟨q, hq, h⟩, e⟩
  · rw [e]
    by_cases h0 : (g.points.map Prod.snd).sum ≤ 0
    · dsimp only
      rw [if_pos h0]
      exact ⟨⟨fun h => by linarith [h.2.2], by simp⟩, .inr rfl⟩
    · dsimp only
      rw [if_neg h0]
      exact ⟨⟨fun _ => ⟨_, rfl⟩, fun _ => ⟨by omega, h, not_le.1 h0⟩⟩, .inl ⟨_, rfl⟩⟩
  · rw [e]
    refine ⟨⟨fun h' => ?_, by simp⟩, .inr rfl⟩
    have := h'.2.1 q hq
    rcases h with h | h <;> linarith

/-- **C44**, tables: what is stored.  The rules and densities are those given, the energies too
except that zero becomes the smallest positive number; so all energies are positive. -/
theorem C44_table_stored {pid : Int} {g : Grid.Grid} {s : Source} (e : mkGrid pid g = .ok s) :
    ∃ g', s.spectrum = .grid g' ∧ g'.interp = g.interp ∧ g'.extrap = g.extrap ∧
      g'.points = g.points.map (fun p => (if p.1 = 0 then tiny else p.1, p.2)) ∧
      ∀ p ∈ g'.points, 0 < p.1 ∧ 0 ≤ p.2 := by
  unfold mkGrid checkForErrors at e
  split_ifs at e with ha h2
  rcases checkLoop_spec g.points with ⟨h, e'⟩ | ⟨-, e'⟩
  · rw [e'] at e
    dsimp only at e
    by_cases h0 : (g.points.map Prod.snd).sum ≤ 0
    · rw [if_pos h0] at e; cases e
    · rw [if_neg h0] at e
      cases e
      refine ⟨_, rfl, rfl, rfl, rfl, ?_⟩
      intro p hp
      simp only [List.mem_map] at hp
      obtain ⟨q, hq, rfl⟩ := hp
      refine ⟨?_, (h q hq).2⟩
      dsimp only
      by_cases hz : q.1 = 0
      · rw [if_pos hz]; exact tiny_pos
      · rw [if_neg hz]; exact lt_of_le_of_ne (h q hq).1 (Ne.symm hz)
  · rw [e'] at e; cases e

/-- The vector constructor uses the grid constructor, with density zero outside. -/
theorem C44_vectors (pid : Int) (Es ys : List ℝ) (m : Interp) :
    (Es.length = ys.length → mkGridVectors pid Es ys m = mkGrid pid ⟨m, .zero, Es.zip ys⟩) ∧
    (Es.length ≠ ys.length → mkGridVectors pid Es ys m = .error .marleyError) := by
  constructor
  · intro h
    unfold mkGridVectors
    rw [(C15_constructor_partial Es ys m .zero).2 h]
    by_cases ha : allowed pid = true
    · rw [if_pos ha]
    · rw [if_neg ha]; unfold mkGrid; rw [if_neg ha]
  · intro h
    unfold mkGridVectors
    rw [(C15_constructor_partial Es ys m .zero).1 h]
    split_ifs <;> rfl

/-- A sorted table whose density is zero outside. -/
def ZeroOutside : Source → Prop
  | ⟨_, .grid g⟩ => Sorted g.points ∧ g.extrap = .zero
  | _ => True

/-- **C44** (partial), range: the density of a source is zero at every energy below `Emin` or
above `Emax`.  For tables this needs ordered energies and the default treatment of energies
outside the table; see the two theorems that follow. -/
theorem C44_range_partial {s : Source} (h : Built s) (hz : ZeroOutside s) :
    ∃ a b, Emin s.spectrum = .ok a ∧ Emax s.spectrum = .ok b ∧
      ∀ E, E < a ∨ b < E → s.pdf E = .ok (some 0) := by
  have table : ∀ pid g, mkGrid pid g = .ok s → ∃ a b, Emin s.spectrum = .ok a ∧
      Emax s.spectrum = .ok b ∧ ∀ E, E < a ∨ b < E → s.pdf E = .ok (some 0) := by
    intro pid g e
    have hp := mkGrid_pid e
    have hl : 2 ≤ g.points.length :=
      ((C44_table_accepted ((allowed_iff pid).1 hp.1) g).1.2 ⟨s, e⟩).1
    obtain ⟨g', hs, -, -, hg, -⟩ := C44_table_stored e
    obtain ⟨i, sp⟩ := s
    cases hs
    have hl' : 2 ≤ g'.points.length := by rw [hg]; simpa using hl
    obtain ⟨hs, hx⟩ := hz
    obtain ⟨p, hp0⟩ : ∃ p, g'.points[0]? = some p := ⟨_, List.getElem?_eq_getElem (by omega)⟩
    obtain ⟨p', hp1⟩ : ∃ p, g'.points[1]? = some p := ⟨_, List.getElem?_eq_getElem (by omega)⟩
    obtain ⟨k, hk⟩ : ∃ k, k + 2 = g'.points.length := ⟨g'.points.length - 2, by omega⟩
    obtain ⟨q, hq⟩ : ∃ q, g'.points[k]? = some q := ⟨_, List.getElem?_eq_getElem (by omega)⟩
    obtain ⟨q', hq'⟩ : ∃ q, g'.points[k + 1]? = some q := ⟨_, List.getElem?_eq_getElem (by omega)⟩
    refine ⟨p.1, q'.1, ?_, ?_, ?_⟩
    · simp [Emin, List.head?_eq_getElem?, hp0]
    · have : g'.points.length - 1 = k + 1 := by omega
      simp [Emax, List.getLast?_eq_getElem?, this, hq']
    · rintro E (h | h)
      · have := (C14_left_of_range g' hs p p' hp0 hp1 E h).1 (by rw [hx]; simp)
        simp only [Source.pdf]; rw [this, hx, outsideSpec]
      · have := (C14_right_of_range g' hs k q q' hk hq hq' E h).1 (by rw [hx]; simp)
        simp only [Source.pdf]; rw [this, hx, outsideSpec]
  cases h with
  | @mono pid E s e =>
    unfold mkMono at e; split_ifs at e with h; cases e
    refine ⟨E, E, rfl, rfl, fun x hx => ?_⟩
    have : E ≠ x := by rintro rfl; rcases hx with h | h <;> exact lt_irrefl _ h
    simp [Source.pdf, this]
  | fermiDirac e =>
    unfold mkFermiDirac at e; split_ifs at e with h; cases e
    exact ⟨_, _, rfl, rfl, fun x hx => by simp only [Source.pdf]; rw [if_pos hx]⟩
  | betaFit e =>
    unfold mkBetaFit at e; split_ifs at e with h; cases e
    exact ⟨_, _, rfl, rfl, fun x hx => by simp only [Source.pdf]; rw [if_pos hx]⟩
  | function e =>
    unfold mkFunction at e; split_ifs at e with h; cases e
    exact ⟨_, _, rfl, rfl, fun x hx => by simp only [Source.pdf]; rw [if_pos hx]⟩
  | decayAtRest e =>
    unfold mkDecayAtRest at e; split_ifs at e with h; cases e
    exact ⟨_, _, rfl, rfl, fun x hx => by simp only [Source.pdf]; rw [if_pos hx]⟩
  | grid e => exact table _ _ e
  | @vectors pid Es ys m s e =>
    by_cases hl : Es.length = ys.length
    · rw [(C44_vectors pid Es ys m).1 hl] at e; exact table _ _ e
    · rw [(C44_vectors pid Es ys m).2 hl] at e; cases e

/-- Ordered vectors of doubles (positive numbers are at least `tiny`) give a source to which
`C44_range_partial` applies. -/
theorem C44_ordered_vectors {pid : Int} {Es ys : List ℝ} {m : Interp} {s : Source}
    (e : mkGridVectors pid Es ys m = .ok s) (ho : Es.Pairwise (· ≤ ·))
    (hd : ∀ E ∈ Es, E = 0 ∨ tiny ≤ E) : ZeroOutside s := by
  by_cases hl : Es.length = ys.length
  · rw [(C44_vectors pid Es ys m).1 hl] at e
    obtain ⟨g', hs, -, hx, hg, -⟩ := C44_table_stored e
    obtain ⟨i, sp⟩ := s
    cases hs
    refine ⟨?_, hx⟩
    rw [hg]
    apply sorted_moved
    · have : ((Es.zip ys).map Prod.fst).Pairwise (· ≤ ·) := by
        rw [List.map_fst_zip hl.le]; exact ho
      exact List.pairwise_map.1 this
    · intro p hp
      exact hd _ (List.of_mem_zip hp).1
  · rw [(C44_vectors pid Es ys m).2 hl] at e; cases e

theorem tiny_lt_one : tiny < 1 := by
  unfold tiny
  rw [zpow_neg]
  apply inv_lt_one_of_one_lt₀
  exact one_lt_zpow₀ (by norm_num) (by norm_num)

/-- The hypotheses hold for a table starting at energy zero. -/
example : ∃ s, mkGridVectors 12 [0, 1, 3] [0, 2, 1] .linearLinear = .ok s ∧ Built s ∧
    ZeroOutside s := by
  obtain ⟨s, hs⟩ := (C44_table_accepted (pid := 12) (.inl rfl)
    ⟨.linearLinear, .zero, [(0, 0), (1, 2), (3, 1)]⟩).1.1 (by
      refine ⟨by simp, ?_, by norm_num⟩
      intro p hp
      simp only [List.mem_cons, List.not_mem_nil, or_false] at hp
      rcases hp with rfl | rfl | rfl <;> norm_num)
  have e : mkGridVectors 12 [0, 1, 3] [0, 2, 1] .linearLinear = .ok s := by
    rw [(C44_vectors 12 [0, 1, 3] [0, 2, 1] _).1 rfl]; exact hs
  refine ⟨s, e, .vectors e, C44_ordered_vectors e (by simp) ?_⟩
  intro E hE
  simp only [List.mem_cons, List.not_mem_nil, or_false] at hE
  rcases hE with rfl | rfl | rfl
  · exact .inl rfl
  · exact .inr tiny_lt_one.le
  · exact .inr (by linarith [tiny_lt_one])

/-- **C44** does not hold for a grid object that extrapolates: the density above `Emax` is not
zero. -/
theorem C44_extrapolation_violated : ∃ s b, mkGrid 12 ⟨.linearLinear, .endpoint, [(1, 1), (2, 1)]⟩
    = .ok s ∧ Emax s.spectrum = .ok b ∧ b < 3 ∧ s.pdf 3 = .ok (some 1) := by
  have hc : checkForErrors ⟨.linearLinear, .endpoint, [(1, 1), (2, 1)]⟩
      = .ok ⟨.linearLinear, .endpoint, [(1, 1), (2, 1)]⟩ := by
    norm_num [checkForErrors, checkLoop]
  refine ⟨⟨12, .grid ⟨.linearLinear, .endpoint, [(1, 1), (2, 1)]⟩⟩, 2, ?_, rfl, by norm_num, ?_⟩
  · unfold mkGrid; rw [hc]; rfl
  · have := (C14_right_of_range ⟨.linearLinear, .endpoint, [(1, 1), (2, 1)]⟩
      (by simp [Sorted]) 0 (1, 1) (2, 1) rfl rfl rfl 3 (by norm_num)).1 (by simp)
    simp only [Source.pdf]; rw [this]; rfl

/-- **C44** does not hold for unordered energies, which the constructor from vectors accepts: the
density above `Emax` (the last energy) is not zero. -/
theorem C44_unordered_violated : ∃ s b, mkGridVectors 12 [1, 3, 2] [1, 1, 1] .constant
    = .ok s ∧ Emax s.spectrum = .ok b ∧ b < 5 / 2 ∧ s.pdf (5 / 2) = .ok (some 1) := by
  have hc : checkForErrors ⟨.constant, .zero, [(1, 1), (3, 1), (2, 1)]⟩
      = .ok ⟨.constant, .zero, [(1, 1), (3, 1), (2, 1)]⟩ := by
    norm_num [checkForErrors, checkLoop]
  refine ⟨⟨12, .grid ⟨.constant, .zero, [(1, 1), (3, 1), (2, 1)]⟩⟩, 2, ?_, rfl, by norm_num, ?_⟩
  · rw [(C44_vectors 12 [1, 3, 2] [1, 1, 1] _).1 rfl]
    unfold mkGrid
    simp only [List.zip_cons_cons, List.zip_nil_right]
    rw [hc]; rfl
  · have hb : Std.lowerBound (fun p : ℝ × ℝ => decide (p.1 < 5 / 2)) [(1, 1), (3, 1), (2, 1)] = 1 := by
      unfold Std.lowerBound
      rw [Std.searchLoop]
      norm_num
      rw [Std.searchLoop]
      norm_num
      rw [Std.searchLoop]
      norm_num
    have hf : Grid.findBinLimits [(1, 1), (3, 1), (2, 1)] (5 / 2) = .ok (false, 0) := by
      unfold Grid.findBinLimits
      rw [hb]
      simp
    simp only [Source.pdf, Grid.interpolate, hf]
    simp [Grid.inBin]

end Marley.Props
