import Verif.Lemmas.NuclearModels
import Verif.Lemmas.Reaction
import Verif.Lemmas.CrossSection
import Verif.Props.LevelDensity
import Verif.Props.GammaStrength
import Verif.Props.OpticalModel

/-!
# C93: decay widths computed with the nuclear models of the library
-/

set_option autoImplicit false

namespace Marley.Props
open Marley Marley.Decay
open Marley.Scheme (Scheme Level)
open Marley.Structure (Fragment)
open Marley.Sampling (Engine)

variable {G : Type}

/-- Nuclides for which the nuclear models are meant: masses are known or can be estimated, there are not too many
nucleons (C89), and the shell correction is not too negative (C90). -/
structure Ordinary (t : Mass.Table) (Z A : Int) : Prop where
  nucleons : 1 ≤ A ∧ A ≤ 509
  protons : 0 ≤ Z ∧ Z ≤ A
  shell : SmallShell t Z A
  separation : ∃ S, Mass.separationEnergy t Z A 2112 true = .ok (some S)
  mass : ∃ M, Mass.atomicMass t Z A true = .ok (some M) ∧ 0 < M

/-- A fragment with nucleons and a known mass. -/
structure Emittable (t : Mass.Table) (f : Fragment) : Prop where
  nucleons : ∃ n z : ℕ, Pdg.getZ f.pid = z ∧ Pdg.getA f.pid = n + z ∧ 1 ≤ n + z
  positive : 0 < f.pid
  mass : ∃ m, Mass.particleMass t f.pid = .ok m ∧ 0 ≤ m

/-- The nucleus, and what remains of it when a fragment is emitted, are of the ordinary kind. -/
structure Compound (t : Mass.Table) (frags : List Fragment) (pdg : Int) (Ex : ℝ) : Prop where
  fragments : ∀ f ∈ frags, Emittable t f
  listed : Listed frags
  electron : ∃ m, Mass.particleMass t 11 = .ok m
  code : Pdg.nucleusPid (Pdg.getZ pdg) (Pdg.getA pdg) = pdg
  nucleus : Ordinary t (Pdg.getZ pdg) (Pdg.getA pdg)
  remnants : ∀ f ∈ frags, ∀ S, Mass.separationEnergyPid t pdg f.pid true = .ok (some S) → S < Ex →
    Ordinary t (Pdg.getZ pdg - Pdg.getZ f.pid) (Pdg.getA pdg - Pdg.getA f.pid)

theorem Ordinary.code {t : Mass.Table} {Z A : Int} (h : Ordinary t Z A) :
    Pdg.getZ (Pdg.nucleusPid Z A) = Z ∧ Pdg.getA (Pdg.nucleusPid Z A) = A := by
  obtain ⟨⟨h1, h2⟩, ⟨h3, h4⟩, -, -, -⟩ := h
  exact code_roundtrip h3 (by omega) (by omega) (by omega)

/-! ## The models answer with numbers -/

/-- C93: the level density model answers with a positive number. -/
theorem C93_density {t : Mass.Table} {Z A : Int} (h : Ordinary t Z A) {Ex : ℝ} (hE : 0 ≤ Ex) {twoJ : Int}
    (hJ : 0 ≤ twoJ) (P : Parity) :
    ∃ ρ, densityAnswer t (Pdg.nucleusPid Z A) Ex twoJ P = .ok (some ρ) ∧ 0 < ρ := by
  have hm : ∃ m, Density.Bfm.make t Z A = .ok m := by
    obtain ⟨W, ⟨e, d, h1, h2, -⟩, -⟩ := h.shell
    obtain ⟨S, h3⟩ := h.separation
    unfold Density.Bfm.make
    rw [if_neg (by have := h.nucleons.1; omega), h1]
    dsimp only
    rw [h2, h3]
    exact ⟨_, rfl⟩
  obtain ⟨m, hm⟩ := hm
  obtain ⟨-, -, r3, -, -, h3, -, -, h4⟩ := C90_positive_partial hm h.shell [] hE hJ P
  refine ⟨r3, ?_, h4⟩
  unfold densityAnswer
  rw [h.code.1, h.code.2, hm]
  exact congrArg Except.ok h3

theorem transmission_zero {Z A : Int} {m : Strength.Slo} (h : Strength.Slo.make Z A = .ok m)
    (type : Strength.TrType) {l : Int} (hl : 1 ≤ l) : m.transmission type l 0 = .ok (some 0) := by
  have hA : 1 ≤ A := (C89_made Z A).1 ⟨m, h⟩
  have hA' : (0 : ℝ) < A := by exact_mod_cast (by omega : 0 < A)
  obtain ⟨m', h', a1, a2, a3, a4, a5, a6, a7, a8, a9⟩ := slo_make (Z := Z) hA
  rw [h] at h'
  cases h'
  obtain ⟨b1, -⟩ := electric_members Z A
  have hc : ∃ c, m.coefficient type l 0 = .ok (some c) := by
    unfold Strength.Slo.coefficient
    rw [if_neg (by omega)]
    have key : ∀ E W S : ℝ, 0 < E → ∃ c, Utils.fdiv (S * W ^ 2)
        ((2 * l + 1) * Real.pi ^ 2 * (((0 : ℝ) ^ 2 - E ^ 2) ^ 2 + 0 ^ 2 * W ^ 2)) = some c := by
      intro E W S hE
      have hpi := Real.pi_pos
      have hl' : (0 : ℝ) < l := by exact_mod_cast (by omega : 0 < l)
      refine ⟨_, if_neg ?_⟩
      have : ((0 : ℝ) ^ 2 - E ^ 2) ^ 2 + 0 ^ 2 * W ^ 2 = E ^ 4 := by ring
      rw [this]
      positivity
    have e1 : 0 < m.eE1 := by rw [a1, b1]; exact energy1_pos hA
    have e2 : 0 < m.eE2 := by rw [a4]; unfold Spec.E2energy; positivity
    have e3 : 0 < m.eM1 := by rw [a7]; unfold Spec.M1energy; positivity
    cases type with
    | electric =>
      unfold Strength.Slo.resonance
      by_cases h1 : l = 1
      · rw [if_pos h1]
        obtain ⟨c, hc⟩ := key _ m.gammaE1 m.sigmaE1 e1
        exact ⟨c, congrArg Except.ok hc⟩
      · rw [if_neg h1, if_pos (by omega)]
        obtain ⟨c, hc⟩ := key _ m.gammaE2 (Strength.reduce l 2 m.sigmaE2) e2
        exact ⟨c, congrArg Except.ok hc⟩
    | magnetic =>
      obtain ⟨c, hc⟩ := key _ m.gammaM1 (Strength.reduce l 1 m.sigmaM1) e3
      exact ⟨c, congrArg Except.ok hc⟩
    | unphysical => exact ⟨0, rfl⟩
  obtain ⟨c, hc⟩ := hc
  rw [Strength.Slo.transmission, hc]
  simp

/-- C93: the gamma-ray strength model answers with a number that is not negative, and positive if the nuclide has
protons and neutrons and the energy is positive. -/
theorem C93_strength {t : Mass.Table} {Z A : Int} (h : Ordinary t Z A) (type : Rad) {l : Int} (hl : 1 ≤ l) {e : ℝ}
    (he : 0 ≤ e) : ∃ T, strengthAnswer (Pdg.nucleusPid Z A) type l e = .ok (some T) ∧ 0 ≤ T ∧
      (0 < Z → Z < A → 0 < e → 0 < T) := by
  obtain ⟨m, hm⟩ := (C89_made Z A).2 h.nucleons.1
  unfold strengthAnswer
  rw [h.code.1, h.code.2, hm]
  dsimp only
  rcases he.eq_or_lt with rfl | he
  · exact ⟨0, transmission_zero hm _ hl, le_rfl, fun _ _ h => absurd h (lt_irrefl _)⟩
  · obtain ⟨f, T, -, h2, -, h4, h5⟩ := C89_nonneg_partial hm h.nucleons.2 h.protons.1 h.protons.2 type.toType hl he
    exact ⟨T, h2, h4, fun z1 z2 _ => (h5 (by cases type <;> simp [Rad.toType]) z1 z2).2⟩

/-- C93: the optical model answers with a probability. -/
theorem C93_optical {W : World} {Z A : Int} (h : Ordinary W.mass Z A) (he : ∃ m, Mass.particleMass W.mass 11 = .ok m)
    {f : Fragment} (hf : Emittable W.mass f) (KE : ℝ) (twoj twoS : Int) {l : Int} (hl : 0 ≤ l) :
    ∃ T, opticalAnswer W (Pdg.nucleusPid Z A) KE f.pid twoj l twoS = .ok T ∧ 0 ≤ T ∧ T ≤ 1 := by
  obtain ⟨M, hM, hpos⟩ := h.mass
  obtain ⟨me, hme⟩ := he
  obtain ⟨mf, hmf, hnn⟩ := hf.mass
  obtain ⟨n, z, hz, ha, hs⟩ := hf.nucleons
  have hm : ∃ m, Optical.Om.make W.mass Z A stepSize W.kin W.work = .ok m := by
    unfold Optical.Om.make
    rw [if_neg (by have := h.nucleons.1; omega), hM]
    exact ⟨_, rfl⟩
  obtain ⟨m, hm⟩ := hm
  unfold opticalAnswer
  rw [h.code.1, h.code.2, hm]
  dsimp only
  have hr := C91_range W.mass W.coulomb m KE f.pid twoj l twoS 0
  by_cases hK : KE ≤ 0
  · exact ⟨0, hr.2 hK, le_rfl, zero_le_one⟩
  · obtain ⟨l, rfl⟩ := Int.eq_ofNat_of_zero_le hl
    have hob : OpticalObject W.mass W.coulomb Z A stepSize m := ⟨W.kin, W.work, m, [], hm, rfl⟩
    have hcol : OpticalCollision W.mass Z A 0 f.pid n z M mf :=
      ⟨hz, ha, hs, ⟨M, me, hM, hme, by simp⟩, hmf, hpos, hnn⟩
    obtain ⟨x, -, -, hT⟩ := C91_scattering hob (by have := h.nucleons.2; omega) (by unfold stepSize; norm_num) hcol
      (not_le.1 hK) twoj twoS l
    exact ⟨_, hT, hr.1 _ hT⟩

/-! ## Widths -/

section
variable {W : World} {frags : List Fragment} {scheme : Int → Res (Option (Scheme ℝ))} {fragLMax gamLMax : Int}

theorem answer_val {r : Res (Option ℝ)} {x : ℝ} (h : r = .ok (some x)) : Answer.val r = x := by rw [h]; rfl

theorem compound_signs {pdg : Int} {Ex : ℝ} (h : Compound W.mass frags pdg Ex) :
    Signs (builtin W frags scheme fragLMax gamLMax) pdg Ex := by
  refine ⟨fun f hf KE twoj l twoS => ?_, fun f hf S hS hE E twoJ P h1 h2 => ?_, fun E twoJ P h1 h2 => ?_,
    fun type l e h1 h2 => ?_⟩
  · simp only [builtin]
    cases ha : opticalAnswer W (remnant pdg f.pid) KE f.pid twoj l twoS with
    | error e => exact le_rfl
    | ok T =>
      show 0 ≤ T
      unfold opticalAnswer at ha
      split at ha
      · cases ha
      · exact ((C91_range _ _ _ _ _ _ _ _ _).1 T ha).1
  · obtain ⟨ρ, h3, h4⟩ := C93_density (h.remnants f hf S hS hE) h1 h2 P
    simp only [builtin, remnant]
    rw [answer_val h3]
    exact h4.le
  · obtain ⟨ρ, h3, h4⟩ := C93_density h.nucleus h1 h2 P
    rw [h.code] at h3
    simp only [builtin]
    rw [answer_val h3]
    exact h4.le
  · obtain ⟨T, h3, h4, -⟩ := C93_strength h.nucleus type h1 h2
    rw [h.code] at h3
    simp only [builtin]
    rw [answer_val h3]
    exact h4

theorem compound_norm {nucleus : Particle ℝ} {Ex : ℝ} (h : Compound W.mass frags nucleus.pdg Ex) (hE : 0 ≤ Ex)
    {twoJ : Int} (hJ : 0 ≤ twoJ) (P : Parity) :
    0 < initialDensity (builtin W frags scheme fragLMax gamLMax) nucleus.pdg Ex twoJ P ∧
    0 < (parent (builtin W frags scheme fragLMax gamLMax) nucleus Ex twoJ P).norm := by
  have : 0 < initialDensity (builtin W frags scheme fragLMax gamLMax) nucleus.pdg Ex twoJ P := by
    obtain ⟨ρ, h3, h4⟩ := C93_density h.nucleus hE hJ P
    unfold initialDensity
    simp only [builtin]
    rw [answer_val h3]
    exact h4
  refine ⟨this, ?_⟩
  unfold parent
  have := Real.pi_pos
  positivity

/-- C93: no partial width is negative, and the total width is their sum. -/
theorem C93_widths {nucleus : Particle ℝ} {Ex : ℝ} (h : Compound W.mass frags nucleus.pdg Ex) (hE : 0 ≤ Ex)
    (hD : SortedSchemes (builtin W frags scheme fragLMax gamLMax)) {twoJ : Int} (hJ : 0 ≤ twoJ) {P : Parity}
    {s : Channels} (hb : build (builtin W frags scheme fragLMax gamLMax) nucleus Ex twoJ P = .ok s) :
    (∀ x ∈ s.2, 0 ≤ x.width) ∧ s.1 = (s.2.map (·.width)).sum := by
  obtain ⟨h1, h2⟩ := build_total hb
  refine ⟨fun x hx => ?_, h1⟩
  have hp := (C52_offered_partial hD hb x.kind).1 ⟨x, hx, rfl⟩
  obtain ⟨w, h3, h4⟩ := kindWidth_nonneg hD (c := parent (builtin W frags scheme fragLMax gamLMax) nucleus Ex twoJ P)
    (compound_signs h) h.listed (compound_norm h hE hJ P).2.le hJ hp
  have := (h2 x hx).symm.trans h3
  cases this
  exact h4

/-! ## No exceptions -/

theorem levelLoop_some {kind : Level ℝ → Kind} {width : Level ℝ → Res ℝ} {max : ℝ} {ls : List (Nat × Level ℝ)}
    (h : ∀ l ∈ ls, l.2.energy < max → ∃ w, width l.2 = .ok w) (s : Channels) :
    ∃ s', levelLoop kind width max ls s = .ok s' := by
  induction ls generalizing s with
  | nil => exact ⟨s, rfl⟩
  | cons l t ih =>
    unfold levelLoop
    by_cases hl : l.2.energy < max
    · rw [if_pos hl]
      obtain ⟨w, hw⟩ := h l List.mem_cons_self hl
      rw [hw]
      exact ih (fun l hl => h l (List.mem_cons_of_mem _ hl)) _
    · rw [if_neg hl]
      exact ⟨s, rfl⟩

theorem addChannels_some {D : Data} {c : Parent} {n : Int} {ds : Option (Scheme ℝ)} (hds : D.scheme n = .ok ds)
    (hD : SortedSchemes D) {max : ℝ} {lev : Level ℝ → Kind} {width : Level ℝ → Res ℝ} {cont : ℝ → Kind}
    (h1 : ∀ l, Known D n l → l.energy < max → ∃ w, width l = .ok w)
    (h2 : ∀ E, Highest D n E → E < max → ∃ w, contWidth D c (cont E) = .ok w) (s : Channels) :
    ∃ s', addChannels D c ds max lev width cont s = .ok s' := by
  have hl : ∀ s, ∃ s', levelLoop lev width max (levelsOf ds) s = .ok s' := by
    intro s
    refine levelLoop_some (fun l hl hm => ?_) s
    cases ds with
    | none => simp [levelsOf] at hl
    | some d => exact h1 l.2 ⟨d, l.1, hds, hl⟩ hm
  obtain ⟨s', hs'⟩ := hl s
  show ∃ s', (match levelLoop lev width max (levelsOf ds) s with
    | .error e => .error e
    | .ok s =>
      if max > contMin ds then
        match contWidth D c (cont (contMin ds)) with
        | .error e => .error e
        | .ok w => .ok (s.push (cont (contMin ds)) w)
      else .ok s) = Except.ok s'
  rw [hs']
  dsimp only
  by_cases hm : max > contMin ds
  · rw [if_pos hm]
    obtain ⟨w, hw⟩ := h2 _ ((contMin_highest hD hds _).2 rfl) hm
    rw [hw]
    exact ⟨_, rfl⟩
  · rw [if_neg hm]
    exact ⟨_, rfl⟩

theorem separation_some {t : Mass.Table} {f : Fragment} (he : ∃ m, Mass.particleMass t 11 = .ok m)
    (hf : Emittable t f) (Z A : Int) : ∃ S, Mass.separationEnergy t Z A f.pid true = .ok S := by
  obtain ⟨me, he⟩ := he
  obtain ⟨mf, hm, -⟩ := hf.mass
  have look : ∀ Z A, ∃ r, Mass.lookup t Z A true = .ok r := by
    intro Z A
    unfold Mass.lookup
    split
    · exact ⟨_, rfl⟩
    · exact ⟨_, rfl⟩
  obtain ⟨r1, e1⟩ := look Z A
  obtain ⟨r2, e2⟩ := look (Z - Pdg.getZ f.pid) (A - Pdg.getA f.pid)
  have a1 : ∃ x, Mass.at' t.particle Mass.ELECTRON = .ok x := by
    unfold Mass.particleMass at he
    rw [if_neg (by decide)] at he
    dsimp only at he
    rw [if_neg (by decide)] at he
    unfold Mass.at' Mass.ELECTRON
    split at he
    · cases he
    · exact ⟨_, rfl⟩
  have a2 : ∃ x, Mass.at' t.particle f.pid = .ok x := by
    have := hf.positive
    unfold Mass.particleMass at hm
    rw [if_neg (by omega)] at hm
    dsimp only at hm
    rw [if_neg (by omega)] at hm
    unfold Mass.at'
    split at hm
    · cases hm
    · exact ⟨_, rfl⟩
  obtain ⟨x1, a1⟩ := a1
  obtain ⟨x2, a2⟩ := a2
  unfold Mass.separationEnergy
  dsimp only
  rw [a1, a2]
  dsimp only
  rw [e1, e2]
  exact ⟨_, rfl⟩

/-- C93: if the level schemes can be read, all widths are computed without exceptions. -/
theorem C93_builds {nucleus : Particle ℝ} {Ex : ℝ} (h : Compound W.mass frags nucleus.pdg Ex) (hE : 0 ≤ Ex)
    (hD : SortedSchemes (builtin W frags scheme fragLMax gamLMax)) {twoJ : Int} (hJ : 0 ≤ twoJ) (P : Parity)
    (h1 : ∃ ds, scheme nucleus.pdg = .ok ds) (h2 : ∀ f ∈ frags, ∃ ds, scheme (remnant nucleus.pdg f.pid) = .ok ds) :
    ∃ s, build (builtin W frags scheme fragLMax gamLMax) nucleus Ex twoJ P = .ok s := by
  obtain ⟨D, hDe⟩ : ∃ D, D = builtin W frags scheme fragLMax gamLMax := ⟨_, rfl⟩
  have n1 := (compound_norm (scheme := scheme) (fragLMax := fragLMax) (gamLMax := gamLMax) h hE hJ P).1
  have kw : ∀ {k}, Possible D nucleus.pdg Ex k → ∃ w, kindWidth D (parent D nucleus Ex twoJ P) k = .ok w := by
    intro k hp
    subst hDe
    obtain ⟨w, h3, -⟩ := kindWidth_nonneg hD (c := parent (builtin W frags scheme fragLMax gamLMax) nucleus Ex twoJ P)
      (compound_signs h) h.listed (compound_norm h hE hJ P).2.le hJ hp
    exact ⟨w, h3⟩
  have hm : D.mass = W.mass := by rw [hDe]; rfl
  have hfr : D.frags = frags := by rw [hDe]; rfl
  have hsc : D.scheme = scheme := by rw [hDe]; rfl
  rw [← hDe] at hD n1 ⊢
  unfold build
  rw [if_neg n1.ne']
  unfold channels
  have one : ∀ f ∈ frags, ∀ s, ∃ s', addFragment D (parent D nucleus Ex twoJ P) f s = .ok s' := by
    intro f hf s
    obtain ⟨mf, hmf, -⟩ := (h.fragments f hf).mass
    obtain ⟨S, hS⟩ := separation_some h.electron (h.fragments f hf) (Pdg.getZ nucleus.pdg) (Pdg.getA nucleus.pdg)
    obtain ⟨ds, hds⟩ := h2 f hf
    unfold addFragment
    rw [hm, hsc, hmf]
    dsimp only [parent]
    rw [hS, hds]
    cases S with
    | none => exact ⟨s, rfl⟩
    | some S =>
      dsimp only
      by_cases hle : Ex - S ≤ 0
      · rw [if_pos hle]; exact ⟨s, rfl⟩
      · rw [if_neg hle]
        have cost : ∀ k, (∃ l, k = Kind.fragLevel f.pid l) ∨ (∃ E, k = Kind.fragCont f.pid E) →
            Costs D nucleus.pdg k S := by
          rintro k (⟨l, rfl⟩ | ⟨E, rfl⟩) <;> exact ⟨⟨f, hfr ▸ hf, rfl⟩, hm ▸ hS⟩
        refine addChannels_some (n := remnant nucleus.pdg f.pid) (hsc ▸ hds) hD
          (fun l hl hlt => kw (k := .fragLevel f.pid l) ⟨S, cost _ (Or.inl ⟨l, rfl⟩), hl, hlt⟩)
          (fun E hh hlt => kw (k := .fragCont f.pid E) ⟨S, cost _ (Or.inr ⟨E, rfl⟩), hh, hlt⟩) s
  have all : ∀ l, (∀ f ∈ l, f ∈ frags) → ∀ s, ∃ s', fragmentLoop D (parent D nucleus Ex twoJ P) l s = .ok s' := by
    intro l
    induction l with
    | nil => exact fun _ s => ⟨s, rfl⟩
    | cons f t ih =>
      intro hl s
      unfold fragmentLoop
      obtain ⟨s', hs'⟩ := one f (hl f List.mem_cons_self) s
      rw [hs']
      exact ih (fun f hf => hl f (List.mem_cons_of_mem _ hf)) s'
  obtain ⟨s, hs⟩ := all D.frags (by rw [hfr]; exact fun _ h => h) (0, [])
  rw [hs]
  dsimp only
  obtain ⟨ds, hds⟩ := h1
  unfold addGammas
  rw [hsc, show (parent D nucleus Ex twoJ P).pdg = nucleus.pdg from rfl, hds]
  exact addChannels_some (c := parent D nucleus Ex twoJ P) (cont := .gamCont) (n := nucleus.pdg) (hsc ▸ hds) hD
    (fun l _ _ => ⟨_, rfl⟩)
    (fun E hh hlt => kw (k := .gamCont E) ⟨0, rfl, hh, by rw [sub_zero]; exact hlt⟩) s

/-! ## Choices -/

/-- A choice among weights that are not negative. -/
theorem pickFrom_some {E : Engine G} (hE : E.Lawful) {w : List ℝ} (hw : ∀ x ∈ w, 0 ≤ x) (hs : 0 < w.sum) (g : G) :
    ∃ i g', Sampling.pickFrom E w g = .ok (i, g') ∧ i < w.length := by
  have hne : w ≠ [] := by rintro rfl; simp at hs
  have : ∃ i g', Sampling.pickFrom E w g = .ok (i, g') := by
    unfold Sampling.pickFrom
    by_cases hl : w.length < 2
    · rw [if_pos hl]; exact ⟨_, _, rfl⟩
    · rw [if_neg hl]
      unfold Sampling.pick
      rw [if_neg hl, if_neg]
      · exact ⟨_, _, rfl⟩
      · rintro (hc | hc)
        · obtain ⟨x, hx, hc⟩ := List.any_eq_true.1 hc
          have := hw x hx
          simp only [decide_eq_true_eq] at hc
          linarith
        · linarith
  obtain ⟨i, g', e⟩ := this
  exact ⟨i, g', e, Xs.pickFrom_lt hE hne e⟩

theorem sum_zero {w : List ℝ} (hw : ∀ x ∈ w, 0 ≤ x) (h : w.sum ≤ 0) : ∀ x ∈ w, x = 0 := by
  intro x hx
  have h1 := List.single_le_sum hw x hx
  exact le_antisymm (by linarith) (hw x hx)

theorem sampleExit_some {E : Engine G} (hE : E.Lawful) {s : Channels} (hw : ∀ x ∈ s.2, 0 ≤ x.width)
    (hs : s.1 = (s.2.map (·.width)).sum) (h0 : 0 < s.1) (g : G) :
    ∃ x g', sampleExit E s g = .ok (x, g') ∧ x ∈ s.2 := by
  have hw' : ∀ x ∈ s.2.map (·.width), 0 ≤ x := by
    intro w h
    obtain ⟨x, hx, rfl⟩ := List.mem_map.1 h
    exact hw x hx
  obtain ⟨i, g', e, hi⟩ := pickFrom_some hE hw' (hs ▸ h0) g
  rw [List.length_map] at hi
  refine ⟨s.2[i], g', ?_, List.getElem_mem _⟩
  unfold sampleExit
  rw [if_neg (not_le.2 h0), e]
  dsimp only
  rw [List.getElem?_eq_getElem hi]

/-- C93: a channel is chosen, or `marley::Error` is thrown and all partial widths are zero. -/
theorem C93_choice {E : Engine G} (hE : E.Lawful) {nucleus : Particle ℝ} {Ex : ℝ}
    (h : Compound W.mass frags nucleus.pdg Ex) (hx : 0 ≤ Ex)
    (hD : SortedSchemes (builtin W frags scheme fragLMax gamLMax)) {twoJ : Int} (hJ : 0 ≤ twoJ) {P : Parity}
    {s : Channels} (hb : build (builtin W frags scheme fragLMax gamLMax) nucleus Ex twoJ P = .ok s) (g : G) :
    (∃ x g', sampleExit E s g = .ok (x, g') ∧ x ∈ s.2) ∨
      (sampleExit E s g = .error .marleyError ∧ ∀ x ∈ s.2, x.width = 0) := by
  obtain ⟨h1, h2⟩ := C93_widths h hx hD hJ hb
  by_cases h0 : 0 < s.1
  · exact Or.inl (sampleExit_some hE h1 h2 h0 g)
  · right
    refine ⟨by unfold sampleExit; rw [if_pos (not_lt.1 h0)], fun x hx => ?_⟩
    have := sum_zero (w := s.2.map (·.width)) (fun w hw => by
      obtain ⟨x, hx, rfl⟩ := List.mem_map.1 hw
      exact h1 x hx) (h2 ▸ not_lt.1 h0)
    exact this _ (List.mem_map.2 ⟨x, hx, rfl⟩)

/-- Emission of gamma rays to an energy in the continuum has a positive differential width. -/
theorem gamDiff_pos {nucleus : Particle ℝ} {Ex : ℝ}
    (h : Compound W.mass frags nucleus.pdg Ex) (hZ : 0 < Pdg.getZ nucleus.pdg)
    (hN : Pdg.getZ nucleus.pdg < Pdg.getA nucleus.pdg) (hl : 1 ≤ gamLMax) {twoJ : Int} (hJ : 0 ≤ twoJ) (P : Parity)
    {Emin x : ℝ} (h0 : 0 ≤ Emin) (hx : Emin ≤ x) (hx' : x < Ex) :
    ∃ a, gamDiff (builtin W frags scheme fragLMax gamLMax)
      (parent (builtin W frags scheme fragLMax gamLMax) nucleus Ex twoJ P) Emin x = .ok a ∧
      a.1 = (a.2.map (·.width)).sum ∧ (∀ e ∈ a.2, 0 < e.width) ∧ 0 < a.1 := by
  have hn := (compound_norm (scheme := scheme) (fragLMax := fragLMax) (gamLMax := gamLMax) h (by linarith) hJ P).2
  obtain ⟨L, -, h3, a, h4, h5, h6⟩ := C54_continuum (builtin W frags scheme fragLMax gamLMax)
    (parent (builtin W frags scheme fragLMax gamLMax) nucleus Ex twoJ P) hx hx'.le hJ
  have h7 : ∀ e ∈ a.2, 0 < e.width := by
    rw [h6]
    intro e he
    obtain ⟨⟨t, l, J, Q⟩, hx1, rfl⟩ := List.mem_map.1 he
    obtain ⟨-, hw⟩ := (h3 t l J Q).1 hx1
    obtain ⟨T, e1, -, e2⟩ := C93_strength h.nucleus t hw.dipole (sub_nonneg.2 hx'.le)
    obtain ⟨ρ, e3, e4⟩ := C93_density h.nucleus (Ex := x) (by linarith) (twoJ := J) (by
      have := abs_le.1 hw.total.1; have := hw.total.2.1; omega) Q
    rw [h.code] at e1 e3
    have v1 := answer_val e1
    have v2 := answer_val e3
    have e2' := e2 hZ hN (sub_pos.2 hx')
    simp only [builtin, parent] at hn v1 v2 ⊢
    rw [v1, v2]
    positivity
  refine ⟨a, h4, h5, h7, ?_⟩
  have hm : (Rad.magnetic, (1 : Int), twoJ + 2, P) ∈ L := by
    rw [h3]
    refine ⟨hl, le_rfl, ⟨?_, ?_, ?_⟩, ?_⟩
    · show |twoJ + 2 - 2 * 1| ≤ twoJ
      rw [show twoJ + 2 - 2 * 1 = twoJ by ring, abs_of_nonneg hJ]
    · show twoJ ≤ twoJ + 2 + 2 * 1
      omega
    · show 2 ∣ twoJ + 2 + 2 * 1 + twoJ
      omega
    · show P.toInt = P.toInt * (Rad.magnetic.parity 1)
      simp [Rad.parity, orbital]
  have hne : a.2.map (·.width) ≠ [] := by
    rw [h6]
    intro hc
    simp only [List.map_eq_nil_iff] at hc
    rw [hc] at hm
    simp at hm
  rw [h5]
  refine List.sum_pos _ (fun w hw => ?_) hne
  obtain ⟨e, he, rfl⟩ := List.mem_map.1 hw
  exact h7 e he

/-- C93: a nucleus with an energy above its known levels can always decay: the total width is positive and a channel
is chosen. -/
theorem C93_decays {E : Engine G} (hE : E.Lawful) {nucleus : Particle ℝ} {Ex : ℝ}
    (h : Compound W.mass frags nucleus.pdg Ex) (hZ : 0 < Pdg.getZ nucleus.pdg)
    (hN : Pdg.getZ nucleus.pdg < Pdg.getA nucleus.pdg) (hl : 1 ≤ gamLMax)
    (hD : SortedSchemes (builtin W frags scheme fragLMax gamLMax)) {twoJ : Int} (hJ : 0 ≤ twoJ) {P : Parity} {E0 : ℝ}
    (h0 : Highest (builtin W frags scheme fragLMax gamLMax) nucleus.pdg E0) (hx : E0 < Ex)
    {s : Channels} (hb : build (builtin W frags scheme fragLMax gamLMax) nucleus Ex twoJ P = .ok s) :
    0 < s.1 ∧ ∀ g, ∃ x g', sampleExit E s g = .ok (x, g') ∧ x ∈ s.2 := by
  have hp : Possible (builtin W frags scheme fragLMax gamLMax) nucleus.pdg Ex (.gamCont E0) :=
    ⟨0, rfl, h0, by linarith⟩
  have hE0 : 0 ≤ E0 := h0.nonneg hD
  obtain ⟨h1, h2⟩ := C93_widths h (by linarith) hD hJ hb
  obtain ⟨y, hy, hk⟩ := (C52_offered_partial hD hb (.gamCont E0)).2 hp
  have hw : 0 < y.width := by
    have hw := (build_total hb).2 y hy
    rw [hk] at hw
    obtain ⟨v, e1, -, e2⟩ := numIntegrate_nonneg (a := E0) (b := Ex)
      (f := fun x => ((Kind.gamCont E0).diff (builtin W frags scheme fragLMax gamLMax)
        (parent (builtin W frags scheme fragLMax gamLMax) nucleus Ex twoJ P) x).map (·.1)) hx (fun x hx hx' => by
      obtain ⟨a, h3, -, -, h4⟩ := diff_nonneg (compound_signs h) h.listed
        (compound_norm h (by linarith) hJ P).2.le hJ
        (c := parent (builtin W frags scheme fragLMax gamLMax) nucleus Ex twoJ P) rfl hp hE0 hx hx'
      exact ⟨a.1, by rw [h3]; rfl, h4⟩)
    have e3 := e2 (fun x v hx hx' hv => by
      obtain ⟨a, h3, -, -, h4⟩ := gamDiff_pos (scheme := scheme) (fragLMax := fragLMax) h hZ hN hl hJ P hE0 hx.le hx'
      simp only [Kind.diff, h3] at hv
      cases hv
      exact h4)
    have e : (fun x (_ : Unit) => (((Kind.gamCont E0).diff (builtin W frags scheme fragLMax gamLMax)
        (parent (builtin W frags scheme fragLMax gamLMax) nucleus Ex twoJ P) x).map (·.1)).map (fun v => (v, ())))
        = fun x (_ : Unit) => ((Kind.gamCont E0).diff (builtin W frags scheme fragLMax gamLMax)
          (parent (builtin W frags scheme fragLMax gamLMax) nucleus Ex twoJ P) x).map (fun a => (a.1, ())) := by
      funext x _
      cases (Kind.gamCont E0).diff (builtin W frags scheme fragLMax gamLMax)
        (parent (builtin W frags scheme fragLMax gamLMax) nucleus Ex twoJ P) x <;> rfl
    rw [e] at e1
    simp only [kindWidth, contWidth, Kind.bounds] at hw
    rw [if_neg (by show ¬ Ex < E0; linarith)] at hw
    rw [show (parent (builtin W frags scheme fragLMax gamLMax) nucleus Ex twoJ P).Ex = Ex from rfl, e1] at hw
    cases hw
    exact e3
  have hs : 0 < s.1 := by
    have := List.single_le_sum (l := s.2.map (·.width)) (fun w hw => by
      obtain ⟨x, hx, rfl⟩ := List.mem_map.1 hw
      exact h1 x hx) _ (List.mem_map.2 ⟨y, hy, rfl⟩)
    rw [h2]
    linarith
  exact ⟨hs, sampleExit_some hE h1 h2 hs⟩

/-- C93: after emission to an energy in the continuum a spin and parity is chosen, or `marley::Error` is thrown and
all weights are zero; after emission of a gamma ray one is always chosen. -/
theorem C93_spins {E : Engine G} (hE : E.Lawful) {nucleus : Particle ℝ} {Ex : ℝ}
    (h : Compound W.mass frags nucleus.pdg Ex) (h0 : 0 ≤ Ex)
    (hD : SortedSchemes (builtin W frags scheme fragLMax gamLMax)) {twoJ : Int} (hJ : 0 ≤ twoJ) {P : Parity} {k : Kind}
    (hp : Possible (builtin W frags scheme fragLMax gamLMax) nucleus.pdg Ex k) {Emin Emax : ℝ}
    (hk : k.bounds (builtin W frags scheme fragLMax gamLMax)
      (parent (builtin W frags scheme fragLMax gamLMax) nucleus Ex twoJ P) = .ok (Emin, Emax))
    {x : ℝ} (hx : Emin ≤ x) (hx' : x ≤ Emax) (g : G) :
    ((∃ r, sampleSpinParity E (builtin W frags scheme fragLMax gamLMax)
        (parent (builtin W frags scheme fragLMax gamLMax) nucleus Ex twoJ P) k x g = .ok r) ∨
      (sampleSpinParity E (builtin W frags scheme fragLMax gamLMax)
        (parent (builtin W frags scheme fragLMax gamLMax) nucleus Ex twoJ P) k x g = .error .marleyError ∧
        ∃ a, k.diff (builtin W frags scheme fragLMax gamLMax)
          (parent (builtin W frags scheme fragLMax gamLMax) nucleus Ex twoJ P) x = .ok a ∧ ∀ e ∈ a.2, e.width = 0)) ∧
    (k = .gamCont Emin → x < Ex → 0 < Pdg.getZ nucleus.pdg → Pdg.getZ nucleus.pdg < Pdg.getA nucleus.pdg →
      1 ≤ gamLMax → ∃ r, sampleSpinParity E (builtin W frags scheme fragLMax gamLMax)
        (parent (builtin W frags scheme fragLMax gamLMax) nucleus Ex twoJ P) k x g = .ok r) := by
  have hmin : 0 ≤ Emin := by
    obtain ⟨S, hS, h1⟩ := C52_energies_partial hD hp
    cases k with
    | fragLevel f lev => simp [Kind.bounds] at hk
    | gamLevel lev => simp [Kind.bounds] at hk
    | fragCont f E =>
      have : E = Emin := by
        unfold Kind.bounds at hk
        dsimp only at hk
        split at hk
        · cases hk
        · cases hk
        · simp only [Except.ok.injEq, Prod.mk.injEq] at hk
          exact hk.1
      exact this ▸ h1.1
    | gamCont E =>
      simp only [Kind.bounds, Except.ok.injEq, Prod.mk.injEq] at hk
      exact hk.1 ▸ h1.1
  obtain ⟨a, e1, e2, e3, e4⟩ := diff_nonneg (compound_signs h) h.listed (compound_norm h h0 hJ P).2.le hJ
    (c := parent (builtin W frags scheme fragLMax gamLMax) nucleus Ex twoJ P) hk hp hmin hx hx'
  have hw : ∀ w ∈ a.2.map (·.width), 0 ≤ w := by
    intro w hw
    obtain ⟨e, he, rfl⟩ := List.mem_map.1 hw
    exact e3 e he
  have good : 0 < a.1 → ∃ r, sampleSpinParity E (builtin W frags scheme fragLMax gamLMax)
      (parent (builtin W frags scheme fragLMax gamLMax) nucleus Ex twoJ P) k x g = .ok r := by
    intro ha
    obtain ⟨i, g', e, hi⟩ := pickFrom_some hE hw (e2 ▸ ha) g
    rw [List.length_map] at hi
    unfold sampleSpinParity
    rw [e1]
    dsimp only
    rw [if_neg (not_le.2 ha), e]
    dsimp only
    rw [List.getElem?_eq_getElem hi]
    exact ⟨_, rfl⟩
  refine ⟨?_, fun hg hxE hZ hN hl => ?_⟩
  · by_cases ha : 0 < a.1
    · exact Or.inl (good ha)
    · right
      refine ⟨by unfold sampleSpinParity; rw [e1]; dsimp only; rw [if_pos (not_lt.1 ha)], a, e1, fun e he => ?_⟩
      exact sum_zero hw (e2 ▸ not_lt.1 ha) _ (List.mem_map.2 ⟨e, he, rfl⟩)
  · obtain ⟨b, b1, -, -, b2⟩ := gamDiff_pos (scheme := scheme) (fragLMax := fragLMax) h hZ hN hl hJ P hmin hx hxE
    rw [hg] at e1
    simp only [Kind.diff, b1, Except.ok.injEq] at e1
    exact good (e1 ▸ b2)

end

/-! ## A nucleus -/

/-- A table with the particles that are needed; masses of atoms are estimated. -/
noncomputable def dropTable : Mass.Table where
  particle := fun k => if k = 11 then some 548.58 else if k = 2112 then some 1008664.9
    else if k = 2212 then some 1007276.5 else if k = 1000020040 then some 4001506.2 else none
  atomic := fun _ => none

theorem drop_mass {Z A : Int} (hA : 1 ≤ A) (h0 : 0 ≤ Z) (h1 : Z ≤ A) :
    ∃ M, Mass.liquidDropMass Z A = some M ∧ 0 < M := by
  unfold Mass.liquidDropMass Mass.liquidDropExcess
  rw [if_neg (by omega)]
  refine ⟨_, rfl, ?_⟩
  have hA' : (1 : ℝ) ≤ A := by exact_mod_cast hA
  have hZ' : (0 : ℝ) ≤ Z := by exact_mod_cast h0
  have hZA : (Z : ℝ) ≤ A := by exact_mod_cast h1
  have hN : (0 : ℝ) ≤ ((A - Z : Int) : ℝ) := by push_cast; linarith
  obtain ⟨q, hq⟩ : ∃ q : ℝ, q = ((A - Z - Z : Int) : ℝ) / A := ⟨_, rfl⟩
  have hq1 : q ^ 2 ≤ 1 := by
    rw [hq, sq_le_one_iff_abs_le_one, abs_le]
    push_cast
    constructor
    · rw [le_div_iff₀ (by linarith)]; linarith
    · rw [div_le_iff₀ (by linarith)]; linarith
  obtain ⟨u, hu⟩ : ∃ u : ℝ, u = (A : ℝ) ^ ((2 : ℝ) / 3) := ⟨_, rfl⟩
  have hu0 : 0 ≤ u := by rw [hu]; positivity
  have huA : u ≤ A := by
    rw [hu]
    exact (Real.rpow_le_rpow_of_exponent_le hA' (by norm_num)).trans_eq (Real.rpow_one _)
  obtain ⟨d, hd⟩ : ∃ d : ℝ, d = (if Z.tmod 2 ≠ 0 ∧ (A - Z).tmod 2 ≠ 0 then 11 / Real.sqrt A
      else if ¬ Z.tmod 2 ≠ 0 ∧ ¬ (A - Z).tmod 2 ≠ 0 then -11 / Real.sqrt A else 0) := ⟨_, rfl⟩
  have hs : 1 ≤ Real.sqrt A := Real.one_le_sqrt.2 hA'
  have hd1 : -11 ≤ d := by
    rw [hd]
    split_ifs
    · have : 0 ≤ 11 / Real.sqrt A := by positivity
      linarith
    · rw [le_div_iff₀ (by linarith)]; linarith
    · norm_num
  obtain ⟨k, hk⟩ : ∃ k : ℝ, k = (0.717 / (A : ℝ) ^ ((1 : ℝ) / 3) - 1.21129 / A) * (Z : ℝ) ^ 2 := ⟨_, rfl⟩
  have hk1 : -(1.21129 * A) ≤ k := by
    have a1 : 0 ≤ 0.717 / (A : ℝ) ^ ((1 : ℝ) / 3) * (Z : ℝ) ^ 2 := by positivity
    have a2 : 1.21129 / (A : ℝ) * (Z : ℝ) ^ 2 ≤ 1.21129 * A := by
      rw [div_mul_eq_mul_div, div_le_iff₀ (by linarith)]
      nlinarith
    rw [hk, sub_mul]
    linarith
  rw [← hq, ← hu, ← hk, ← hd]
  have hμ : Mass.microAmu * 1e6 * (A : ℝ) = 931.494061 * A := by unfold Mass.microAmu; norm_num
  rw [hμ]
  have b1 : 0 ≤ (1.79 * q ^ 2) * A := by positivity
  have b2 : (1.79 * q ^ 2) * u ≤ 1.79 * A := by
    have : q ^ 2 * u ≤ 1 * A := mul_le_mul hq1 huA hu0 zero_le_one
    linarith
  have b3 : -(15.677 * (1 - 1.79 * q ^ 2)) * A = -15.677 * A + 15.677 * ((1.79 * q ^ 2) * A) := by ring
  have b4 : 18.56 * (1 - 1.79 * q ^ 2) * u = 18.56 * u - 18.56 * ((1.79 * q ^ 2) * u) := by ring
  rw [b3, b4]
  linarith

theorem drop_ordinary {Z A : Int} (hA : 2 ≤ A) (hA2 : A ≤ 509) (h0 : 0 ≤ Z) (h1 : Z < A) :
    Ordinary dropTable Z A := by
  obtain ⟨M, hM, hpos⟩ := drop_mass (A := A) (by omega) h0 h1.le
  have hl : ∀ Z A, Mass.lookup dropTable Z A true = .ok (Mass.liquidDropMass Z A, false) := fun _ _ => rfl
  have hz : Pdg.getZ 2112 = 0 := by decide
  have ha : Pdg.getA 2112 = 1 := by decide
  refine ⟨⟨by omega, hA2⟩, ⟨h0, h1.le⟩, ⟨0, ?_, ?_⟩, ?_, ⟨M, ?_, hpos⟩⟩
  · obtain ⟨d, hd⟩ := drop_some Z (A := A) (by omega)
    refine ⟨d, d, ?_, hd, by ring⟩
    rw [Mass.massExcess, hl, Mass.liquidDropMass, hd]
    simp only [Option.map_some]
    norm_num
    ring
  · have : (0 : ℝ) < A := by exact_mod_cast (by omega : 0 < A)
    unfold Spec.levelParameter0 Spec.asymptotic
    rw [zero_mul]
    positivity
  · obtain ⟨M', hM', -⟩ := drop_mass (Z := Z) (A := A - 1) (by omega) h0 (by omega)
    have a1 : Mass.at' dropTable.particle Mass.ELECTRON = .ok 548.58 := by simp [Mass.at', dropTable, Mass.ELECTRON]
    have a2 : Mass.at' dropTable.particle 2112 = .ok 1008664.9 := by simp [Mass.at', dropTable]
    unfold Mass.separationEnergy
    dsimp only
    rw [hz, ha, sub_zero, hl, hl, hM, hM', a1, a2]
    exact ⟨_, rfl⟩
  · rw [Mass.atomicMass, hl, hM]
    rfl

/-- Neutrons, protons and alpha particles. -/
def someFrags : List Fragment := [⟨2112, 1, ⟨true⟩⟩, ⟨2212, 1, ⟨true⟩⟩, ⟨1000020040, 0, ⟨true⟩⟩]

theorem drop_particle {k : Int} {m : ℝ} (hk : 0 < k) (h : dropTable.particle k = some m) :
    Mass.particleMass dropTable k = .ok (Mass.microAmu * m) := by
  unfold Mass.particleMass
  rw [if_neg (by omega)]
  dsimp only
  rw [if_neg (by omega), h]

theorem potassium_compound (Ex : ℝ) : Compound dropTable someFrags 1000190400 Ex := by
  have em : ∀ f ∈ someFrags, Emittable dropTable f := by
    intro f hf
    have hμ : 0 < Mass.microAmu := by norm_num [Mass.microAmu]
    simp only [someFrags, List.mem_cons, List.not_mem_nil, or_false] at hf
    rcases hf with rfl | rfl | rfl
    · exact ⟨⟨1, 0, by decide, by decide, by decide⟩, by decide, _, drop_particle (by decide) (by simp [dropTable]; rfl),
        by positivity⟩
    · exact ⟨⟨0, 1, by decide, by decide, by decide⟩, by decide, _, drop_particle (by decide) (by simp [dropTable]; rfl),
        by positivity⟩
    · exact ⟨⟨2, 2, by decide, by decide, by decide⟩, by decide, _, drop_particle (by decide) (by simp [dropTable]; rfl),
        by positivity⟩
  refine ⟨em, ⟨by decide, by decide⟩, ⟨_, drop_particle (by decide) (by simp [dropTable]; rfl)⟩, by decide, ?_, ?_⟩
  · exact drop_ordinary (by decide) (by decide) (by decide) (by decide)
  · intro f hf S _ _
    simp only [someFrags, List.mem_cons, List.not_mem_nil, or_false] at hf
    rcases hf with rfl | rfl | rfl <;> exact drop_ordinary (by decide) (by decide) (by decide) (by decide)

/-- Decays of potassium-40 with 15 MeV, for any Coulomb functions. -/
example (H : Int → ℝ → ℝ → Option ℂ) (k : Optical.Kin) (w : Optical.Work) (m : ℝ) {E : Engine G} (hE : E.Lawful) :
    ∃ s, build (builtin ⟨dropTable, H, k, w⟩ someFrags (fun _ => .ok none) 5 5) ⟨1000190400, m, 0, 0, 0, m, 0⟩ 15 8 ⟨false⟩
      = .ok s ∧ (∀ x ∈ s.2, 0 ≤ x.width) ∧ 0 < s.1 ∧ ∀ g, ∃ x g', sampleExit E s g = .ok (x, g') ∧ x ∈ s.2 := by
  have hc := potassium_compound 15
  have hD : SortedSchemes (builtin ⟨dropTable, H, k, w⟩ someFrags (fun _ => .ok none) 5 5) := by
    intro n s h
    simp [builtin] at h
  obtain ⟨s, hs⟩ := C93_builds (W := ⟨dropTable, H, k, w⟩) (scheme := fun _ => .ok none) (fragLMax := 5) (gamLMax := 5)
    (nucleus := ⟨1000190400, m, 0, 0, 0, m, 0⟩) hc (by norm_num) hD (twoJ := 8) (by norm_num) ⟨false⟩ ⟨none, rfl⟩
    (fun _ _ => ⟨none, rfl⟩)
  obtain ⟨h1, h2⟩ := C93_decays (W := ⟨dropTable, H, k, w⟩) hE (nucleus := ⟨1000190400, m, 0, 0, 0, m, 0⟩) hc
    (show 0 < Pdg.getZ 1000190400 by decide) (show Pdg.getZ 1000190400 < Pdg.getA 1000190400 by decide) (by norm_num) hD (twoJ := 8) (by norm_num) (E0 := 0) (Or.inr ⟨by
      rintro ⟨lev, s, a, h, -⟩
      simp [builtin] at h, rfl⟩) (by norm_num) hs
  exact ⟨s, hs, (C93_widths (W := ⟨dropTable, H, k, w⟩) hc (by norm_num) hD (by norm_num) hs).1, h1, h2⟩

end Marley.Props
