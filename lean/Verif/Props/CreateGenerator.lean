import Verif.Model.CreateGenerator
import Verif.Props.JobConfig
import Verif.Props.JobTarget
import Verif.Props.SourceDensity
import Verif.Props.WholeEvent
import Verif.Props.Json

/-!
# C94: a generator made from a job configuration is the configured one, and ready
-/

set_option autoImplicit false

namespace Marley.Props
open Marley Marley.Job Marley.Rot
open Marley.Json (Str JVal hasKey at? mapFind)
open Marley.Gen (Gen Src Rx World)
open Marley.Sampling (Arith Engine exact)
open Marley.Reaction (Reaction)
open Marley.Decay (Data)

variable {G : Type}

/-! ## Specification -/

/-- The Coulomb mode that a configuration asks for. -/
def ModeAsked (j : JVal ℝ) (mode : Utils.CoulombMode) : Prop :=
  (∃ s, HasValue j "coulomb_mode".toList (.str s) ∧ Utils.stringFromCoulombMode mode = .ok s) ∨
    Absent j "coulomb_mode".toList ∧ mode = .fermiAndMema

/-- A reaction as it is used by the generator. -/
inductive Uses (xs : Xs.Env G) (mode : Utils.CoulombMode) : Reaction → Rx G → Prop
  | nuclear (r : Reaction.Nuclear) (n : Xs.Nuc) : Xs.Nuc.of r mode = some n →
      Uses xs mode (.nuclear r) (n.rx xs)
  | electron (r : Reaction.Electron) : Uses xs mode (.electron r) (Xs.elRx xs r)

/-- The settings of a generator, apart from its reactions and its target, are those of the
configuration, with the documented defaults for what is not mentioned. -/
structure Follows (S : Setup G) (j : JVal ℝ) (g : Gen G) (cuts : Int × Int) : Prop where
  seed : (∃ n, HasValue j "seed".toList (.int n) ∧ (g.seed : ℤ) = n % 2 ^ 64) ∨
    Absent j "seed".toList ∧ g.seed = S.clock
  engine : g.eng = S.init [g.seed % 2 ^ 32]
  direction : HasValue j "direction".toList (.str "isotropic".toList) ∧ g.rotator.randomize = true ∨
    g.rotator.randomize = false ∧
      ((∃ m x y z, HasValue j "direction".toList (.obj m) ∧ Component (.obj m) ['x'] 0 x ∧
          Component (.obj m) ['y'] 0 y ∧ Component (.obj m) ['z'] 1 z ∧
          IsDirection ⟨x, y, z⟩ g.rotator.dir) ∨
        Absent j "direction".toList ∧ g.rotator.dir = ⟨0, 0, 1⟩)
  fragments : 0 ≤ cuts.1 ∧ ((∃ n, HasValue j "fragment_lmax".toList (.int n) ∧
      (intMin ≤ n → n ≤ intMax → cuts.1 = n)) ∨ Absent j "fragment_lmax".toList ∧ cuts.1 = 5)
  gammas : 1 ≤ cuts.2 ∧ ((∃ n, HasValue j "gamma_lmax".toList (.int n) ∧
      (intMin ≤ n → n ≤ intMax → cuts.2 = n)) ∨ Absent j "gamma_lmax".toList ∧ cuts.2 = 5)
  source : (∃ spec s, HasValue j "source".toList spec ∧ Source.fromSpec spec = .ok (some s) ∧
      g.source.pid = s.pid ∧ Source.Emin s.spectrum = .ok g.source.Emin ∧
      Source.Emax s.spectrum = .ok g.source.Emax ∧ ∀ E, s.pdf E = .ok (some (g.source.pdf E))) ∨
    (Absent j "source".toList ∨ HasValue j "source".toList .null) ∧
      g.source.pid = 12 ∧ g.source.Emin = 10 ∧ g.source.Emax = 10 ∧ g.source.pdf 10 = 1
  weighting : (∃ spec b, HasValue j "source".toList spec ∧ HasValue spec "weight_flux".toList (.bool b) ∧
      g.weightFlux = b) ∨
    (∀ spec, HasValue j "source".toList spec → Absent spec "weight_flux".toList) ∧ g.weightFlux = true
  bound : (∃ v y, HasValue j "energy_pdf_max".toList v ∧ GivenNumber v y ∧ g.pdfMaxDefault = some y) ∨
    Absent j "energy_pdf_max".toList ∧ g.pdfMaxDefault = none
  deexcite : (∃ b, HasValue j "do_deexcitations".toList (.bool b) ∧ g.deexcite = b) ∨
    (∀ b, ¬ HasValue j "do_deexcitations".toList (.bool b)) ∧ g.deexcite = true

/-! ## Lemmas -/

theorem key_cases (j : JVal ℝ) (k : Str) : Absent j k ∨ ∃ x, HasValue j k x := by
  cases j with
  | obj m =>
    cases h : mapFind m k with
    | none => left; simp [Absent, hasKey, h]
    | some x => exact .inr ⟨x, m, rfl, h⟩
  | _ => exact .inl rfl

theorem value_unique {j : JVal ℝ} {k : Str} {x y : JVal ℝ} (h : HasValue j k x) (h' : HasValue j k y) :
    x = y := by
  have := h.at.symm.trans h'.at
  simpa using this

theorem absent_not {j : JVal ℝ} {k : Str} (h : Absent j k) (x : JVal ℝ) : ¬ HasValue j k x := by
  intro h'
  have := h'.has
  rw [h] at this
  cases this

theorem seedOf_ok {clock : Nat} {j : JVal ℝ} {n : Nat} (e : seedOf clock j = .ok n) :
    (∃ i, HasValue j "seed".toList (.int i) ∧ (n : ℤ) = i % 2 ^ 64) ∨
      Absent j "seed".toList ∧ n = clock := by
  unfold seedOf at e
  rcases key_cases j "seed".toList with h | ⟨x, h⟩
  · rw [h] at e; cases e; exact .inr ⟨h, rfl⟩
  · simp only [h.has, h.at, if_true] at e
    cases x with
    | int i =>
      simp only [Json.toLong?] at e
      cases e
      exact .inl ⟨i, h, by unfold toUInt64; omega⟩
    | _ => cases e

theorem component_ok {d : JVal ℝ} {k : Str} {old x : ℝ} (e : component d k old = .ok x) :
    Component d k old x := by
  unfold component at e
  rcases key_cases d k with h | ⟨v, h⟩
  · rw [h] at e; cases e; exact .inr ⟨h, rfl⟩
  · simp only [h.has, h.at, if_true] at e
    refine .inl ⟨v, h, ?_⟩
    cases v with
    | int i => simp only [Source.toDouble?] at e; cases e; exact .inr ⟨i, rfl, rfl⟩
    | float y => simp only [Source.toDouble?] at e; cases e; exact .inl rfl
    | _ => cases e

theorem component_unique {d : JVal ℝ} {k : Str} {old x y : ℝ} (h : Component d k old x)
    (h' : Component d k old y) : x = y := by
  rcases h with ⟨v, h1, h2⟩ | ⟨h1, h2⟩ <;> rcases h' with ⟨v', h1', h2'⟩ | ⟨h1', h2'⟩
  · obtain rfl := value_unique h1 h1'
    have := h2.value.symm.trans h2'.value
    simpa using this
  · exact absurd h1 (absent_not h1' _)
  · exact absurd h1' (absent_not h1 _)
  · rw [h2, h2']

theorem prepareDirection_ok {r r' : Rotator} {j : JVal ℝ} (e : prepareDirection r j = .ok r') :
    (HasValue j "direction".toList (.str "isotropic".toList) ∧ r' = r.setRandomize true) ∨
    (∃ m x y z, HasValue j "direction".toList (.obj m) ∧ Component (.obj m) ['x'] r.dir.x x ∧
      Component (.obj m) ['y'] r.dir.y y ∧ Component (.obj m) ['z'] r.dir.z z ∧
      r.setDirection ⟨x, y, z⟩ = .ok r') ∨
    Absent j "direction".toList ∧ r' = r := by
  unfold prepareDirection at e
  rcases key_cases j "direction".toList with h | ⟨v, h⟩
  · rw [h] at e; cases e; exact .inr (.inr ⟨h, rfl⟩)
  · simp only [h.has, h.at, if_true] at e
    cases v with
    | obj m =>
      dsimp only at e
      split at e
      · cases e
      rename_i x hx
      split at e
      · cases e
      rename_i y hy
      split at e
      · cases e
      rename_i z hz
      exact .inr (.inl ⟨m, x, y, z, h, component_ok hx, component_ok hy, component_ok hz, e⟩)
    | str s =>
      dsimp only at e
      split_ifs at e with hs
      cases e
      have hi : Json.jsonEscape "isotropic".toList = "isotropic".toList := by decide +kernel
      have := C02_escape_injective s _ (hs.trans hi.symm)
      subst this
      exact .inl ⟨h, rfl⟩
    | _ => cases e

theorem cutoff_ok {j : JVal ℝ} {k : Str} {least old c : Int} (hl : least ≤ old)
    (e : cutoff j k least old = .ok c) :
    least ≤ c ∧ ((∃ n, HasValue j k (.int n) ∧ (intMin ≤ n → n ≤ intMax → c = n)) ∨
      Absent j k ∧ c = old) := by
  unfold cutoff at e
  rcases key_cases j k with h | ⟨v, h⟩
  · rw [h] at e; cases e; exact ⟨hl, .inr ⟨h, rfl⟩⟩
  · simp only [h.has, h.at, if_true] at e
    cases v with
    | int n =>
      simp only [Json.toLong?] at e
      split_ifs at e with hc
      cases e
      exact ⟨not_lt.1 hc, .inl ⟨n, h, fun h1 h2 => toInt32_id ⟨h1, h2⟩⟩⟩
    | _ => cases e

theorem prepareStructure_ok {j : JVal ℝ} {cuts : Int × Int} (e : prepareStructure j (5, 5) = .ok cuts) :
    (0 ≤ cuts.1 ∧ ((∃ n, HasValue j "fragment_lmax".toList (.int n) ∧
      (intMin ≤ n → n ≤ intMax → cuts.1 = n)) ∨ Absent j "fragment_lmax".toList ∧ cuts.1 = 5)) ∧
    (1 ≤ cuts.2 ∧ ((∃ n, HasValue j "gamma_lmax".toList (.int n) ∧
      (intMin ≤ n → n ≤ intMax → cuts.2 = n)) ∨ Absent j "gamma_lmax".toList ∧ cuts.2 = 5)) := by
  unfold prepareStructure at e
  split at e
  · cases e
  rename_i f hf
  split at e
  · cases e
  rename_i g hg
  cases e
  exact ⟨cutoff_ok (by decide) hf, cutoff_ok (by decide) hg⟩

theorem srcOf_ok {s : Source.Source} {src : Src} (e : srcOf s = .ok src) :
    src.pid = s.pid ∧ Source.Emin s.spectrum = .ok src.Emin ∧ Source.Emax s.spectrum = .ok src.Emax ∧
      ∀ E, s.pdf E = .ok (some (src.pdf E)) := by
  unfold srcOf at e
  split at e
  · rename_i a b ha hb
    split_ifs at e with h
    cases e
    exact ⟨rfl, ha, hb, fun E => (h E).choose_spec⟩
  · cases e

/-- What `prepare_neutrino_source` does to a new generator. -/
theorem prepareSource_ok {g g' : Gen G} {j : JVal ℝ} (hn : g.reactions = [])
    (e : prepareSource g j = .ok g') : ∃ m src b,
      g' = { g with pdfMaxDefault := m, source := src, weightFlux := b } ∧
      ((∃ v y, HasValue j "energy_pdf_max".toList v ∧ GivenNumber v y ∧ m = some y) ∨
        Absent j "energy_pdf_max".toList ∧ m = g.pdfMaxDefault) ∧
      ((∃ spec s, HasValue j "source".toList spec ∧ Source.fromSpec spec = .ok (some s) ∧
          srcOf s = .ok src ∧
          ((∃ w, HasValue spec "weight_flux".toList (.bool w) ∧ b = w) ∨
            Absent spec "weight_flux".toList ∧ b = g.weightFlux)) ∨
        (Absent j "source".toList ∨ HasValue j "source".toList .null) ∧ src = g.source ∧
          b = g.weightFlux) := by
  unfold prepareSource at e
  split at e
  · cases e
  rename_i m hm
  have hm' : (∃ v y, HasValue j "energy_pdf_max".toList v ∧ GivenNumber v y ∧ m = some y) ∨
        Absent j "energy_pdf_max".toList ∧ m = g.pdfMaxDefault := by
    unfold pdfMaxOf at hm
    rcases key_cases j "energy_pdf_max".toList with h | ⟨v, h⟩
    · rw [h] at hm; cases hm; exact .inr ⟨h, rfl⟩
    · simp only [h.has, h.at, if_true] at hm
      refine .inl ?_
      cases v with
      | int i => simp only [Source.toDouble?] at hm; cases hm; exact ⟨_, _, h, .inr ⟨i, rfl, rfl⟩, rfl⟩
      | float y => simp only [Source.toDouble?] at hm; cases hm; exact ⟨_, _, h, .inl rfl, rfl⟩
      | _ => cases hm
  dsimp only at e
  rcases key_cases j "source".toList with h | ⟨spec, h⟩
  · rw [h] at e
    cases e
    exact ⟨m, g.source, g.weightFlux, rfl, hm', .inr ⟨.inl h, rfl, rfl⟩⟩
  · simp only [h.has, h.at, if_true] at e
    split at e
    · cases e
    · rename_i hs
      cases e
      have : spec = .null := by
        unfold Source.fromSpec at hs
        split at hs
        · rfl
        · obtain ⟨_, -, hs⟩ := bind_ok hs
          obtain ⟨_, -, hs⟩ := bind_ok hs
          obtain ⟨_, -, hs⟩ := bind_ok hs
          obtain ⟨_, -, hs⟩ := bind_ok hs
          cases hs
      subst this
      exact ⟨m, g.source, g.weightFlux, rfl, hm', .inr ⟨.inr h, rfl, rfl⟩⟩
    · rename_i s hs
      split at e
      · cases e
      rename_i b hb
      split at e
      · cases e
      rename_i src hsrc
      have hset : Gen.setSource { g with pdfMaxDefault := m, weightFlux := b } src =
          ({ g with pdfMaxDefault := m, weightFlux := b, source := src }, .ok ()) := by
        simp [Gen.setSource, hn]
      rw [hset] at e
      cases e
      refine ⟨m, src, b, rfl, hm', .inl ⟨spec, s, h, hs, hsrc, ?_⟩⟩
      unfold weightFluxOf at hb
      rcases key_cases spec "weight_flux".toList with h1 | ⟨w, h1⟩
      · rw [h1] at hb; cases hb; exact .inr ⟨h1, rfl⟩
      · simp only [h1.has, h1.at, if_true] at hb
        cases w with
        | bool w => cases hb; exact .inl ⟨_, h1, rfl⟩
        | _ => cases hb

theorem deexciteOf_ok {j : JVal ℝ} {old b : Bool} (e : deexciteOf j old = .ok b) :
    (∃ w, HasValue j "do_deexcitations".toList (.bool w) ∧ b = w) ∨
      (∀ w, ¬ HasValue j "do_deexcitations".toList (.bool w)) ∧ b = old := by
  unfold deexciteOf at e
  rcases key_cases j "do_deexcitations".toList with h | ⟨v, h⟩
  · rw [h] at e; cases e; exact .inr ⟨fun w => absent_not h _, rfl⟩
  · simp only [h.has, h.at, if_true] at e
    cases v with
    | bool w => cases e; exact .inl ⟨_, h, rfl⟩
    | _ => cases e; exact .inr ⟨fun w hw => (by cases value_unique h hw), rfl⟩

theorem noReactions_ok {j : JVal ℝ} {b : Bool} (e : noReactions j = .ok b) :
    b = true ↔ HasValue j "reactions".toList .null := by
  unfold noReactions at e
  rcases key_cases j "reactions".toList with h | ⟨v, h⟩
  · rw [h] at e; cases e
    exact ⟨fun h => by simp at h, fun h' => absurd h' (absent_not h _)⟩
  · simp only [h.has, h.at, if_true] at e
    cases v with
    | null => cases e; exact ⟨fun _ => h, fun _ => rfl⟩
    | _ => cases e; exact ⟨fun h => by simp at h, fun h' => by cases value_unique h h'⟩

theorem rxsOf_ok {xs : Xs.Env G} {mode : Utils.CoulombMode} : ∀ {rs : List Reaction} {l : List (Rx G)},
    rxsOf xs mode rs = .ok l → List.Forall₂ (Uses xs mode) rs l := by
  intro rs
  induction rs with
  | nil => intro l e; cases e; exact .nil
  | cons r rs ih =>
    intro l e
    unfold rxsOf at e
    split at e
    · cases e
    rename_i x hx
    split at e
    · cases e
    rename_i l' hl
    cases e
    refine .cons ?_ (ih hl)
    unfold rxOf at hx
    cases r with
    | nuclear r =>
      dsimp only at hx
      split at hx
      · cases hx
      · rename_i n hn; cases hx; exact .nuclear r n hn
    | electron r => cases hx; exact .electron r

theorem modeOf_ok {j : JVal ℝ} {mode : Utils.CoulombMode} (e : coulombModeOf j = .ok mode) :
    ModeAsked j mode := by
  unfold coulombModeOf at e
  rcases key_cases j "coulomb_mode".toList with h | ⟨v, h⟩
  · rw [h] at e; cases e; exact .inr ⟨h, rfl⟩
  · simp only [h.has, h.at, if_true] at e
    cases v with
    | str s =>
      refine .inl ⟨s, h, ?_⟩
      simp only [textOf] at e
      have key : ∀ m t, Utils.coulombModeFromString t = .ok m → Utils.stringFromCoulombMode m = .ok t := by
        intro m t ht
        unfold Utils.coulombModeFromString at ht
        split at ht
        · rename_i p hp
          cases ht
          have h1 := List.find?_some hp
          have h2 := List.mem_of_find?_eq_some hp
          simp only [decide_eq_true_eq] at h1
          subst h1
          simp only [Utils.coulombModeMap, List.mem_cons, List.not_mem_nil, or_false] at h2
          rcases h2 with rfl | rfl | rfl | rfl | rfl | rfl <;> rfl
        · cases ht
      have h1 := key _ _ e
      have h2 : ∀ m t, Utils.stringFromCoulombMode m = .ok t → Json.jsonEscape t = t := by
        intro m t ht
        cases m <;> cases ht <;> decide +kernel
      have h3 := h2 _ _ h1
      have h4 := C02_escape_injective _ _ h3
      rw [h4] at h1
      exact h1
    | _ => cases e


/-- The direction given by the configuration is kept by the rotator, which works as a rotator does. -/
theorem prepareDirection_follows {j : JVal ℝ} {r : Rotator}
    (e : prepareDirection (Rotator.fresh ⟨0, 0, 1⟩) j = .ok r) : Configured r ∧
    (HasValue j "direction".toList (.str "isotropic".toList) ∧ r.randomize = true ∨
    r.randomize = false ∧
      ((∃ m x y z, HasValue j "direction".toList (.obj m) ∧ Component (.obj m) ['x'] 0 x ∧
          Component (.obj m) ['y'] 0 y ∧ Component (.obj m) ['z'] 1 z ∧
          IsDirection ⟨x, y, z⟩ r.dir) ∨
        Absent j "direction".toList ∧ r.dir = ⟨0, 0, 1⟩)) := by
  obtain ⟨r0, ops, h1, h2, h3⟩ := fresh_configured
  rcases prepareDirection_ok e with ⟨h, rfl⟩ | ⟨m, x, y, z, h, hx, hy, hz, hs⟩ | ⟨h, rfl⟩
  · refine ⟨⟨r0, ops ++ [.setRandomize true], h1, ?_, ?_⟩, .inl ⟨h, rfl⟩⟩
    · intro ev c phi hm
      rcases List.mem_append.1 hm with hm | hm
      · exact h2 _ _ _ hm
      · simp at hm
    · rw [show rotRun r0 (ops ++ [RotOp.setRandomize true]) = rotStep (rotRun r0 ops) (.setRandomize true) by
        simp [rotRun], ← h3]
      rfl
  · obtain ⟨-, hd, hr⟩ := rotInv_setDirection hs
    refine ⟨⟨r0, ops ++ [.setDirection ⟨x, y, z⟩], h1, ?_, ?_⟩, .inr ⟨hr, .inl ⟨m, x, y, z, h, hx, hy, hz, hd⟩⟩⟩
    · intro ev c phi hm
      rcases List.mem_append.1 hm with hm | hm
      · exact h2 _ _ _ hm
      · simp at hm
    · rw [show rotRun r0 (ops ++ [RotOp.setDirection ⟨x, y, z⟩])
        = rotStep (rotRun r0 ops) (.setDirection ⟨x, y, z⟩) by simp [rotRun], ← h3]
      simp [rotStep, hs]
  · exact ⟨⟨r0, ops, h1, h2, h3⟩, .inr ⟨rfl, .inr ⟨h, rfl⟩⟩⟩

/-- The steps of `create_generator`. -/
theorem create_steps {S : Setup G} {j : JVal ℝ} {g : Gen G} {cuts : Int × Int}
    (e : createGenerator S j = .ok (g, cuts)) : ∃ seed rot g1 rs t b nothing,
      seedOf S.clock j = .ok seed ∧ prepareDirection (Rotator.fresh ⟨0, 0, 1⟩) j = .ok rot ∧
      prepareStructure j (5, 5) = .ok cuts ∧
      prepareSource { Gen.fresh S.init seed defaultSrc with frozen := true, rotator := rot } j = .ok g1 ∧
      prepareReactions S.env j = .ok rs ∧ prepareTarget S.env.log j rs = .ok t ∧
      deexciteOf j g1.deexcite = .ok b ∧ noReactions j = .ok nothing ∧
      (nothing = true → g = { withTarget g1 t with deexcite := b }) ∧
      (nothing = false → finishGenerator S j { withTarget g1 t with deexcite := b } rs = .ok g) := by
  unfold createGenerator at e
  split at e
  · cases e
  rename_i seed hseed
  dsimp only at e
  split at e
  · cases e
  rename_i rot hrot
  split at e
  · cases e
  rename_i cuts' hcuts
  split at e
  · cases e
  rename_i g1 hg1
  split at e
  · cases e
  rename_i rs hrs
  split at e
  · cases e
  rename_i t ht
  split at e
  · cases e
  rename_i b hb
  split at e
  · cases e
  · rename_i hn
    cases e
    exact ⟨seed, rot, g1, rs, t, b, true, hseed, hrot, hcuts, hg1, hrs, ht, hb, hn, fun _ => rfl,
      fun h => by cases h⟩
  · rename_i hn
    split at e
    · cases e
    rename_i g2 hg2
    cases e
    exact ⟨seed, rot, g1, rs, t, b, false, hseed, hrot, hcuts, hg1, hrs, ht, hb, hn, fun h => (by cases h),
      fun _ => hg2⟩

theorem finish_steps {S : Setup G} {j : JVal ℝ} {g g' : Gen G} {rs : List Reaction}
    (e : finishGenerator S j g rs = .ok g') : ∃ mode xs n vals,
      ModeAsked j mode ∧ List.Forall₂ (Uses S.xs mode) rs xs ∧ (∃ x ∈ xs, x.pdgA = g.source.pid) ∧ 0 < n ∧
      g' = { g with reactions := xs, frozen := false, pdfMax := g.pdfMaxDefault, norm := n, values := vals } ∧
      g'.Normalised := by
  unfold finishGenerator at e
  split at e
  · cases e
  rename_i mode hmode
  split at e
  · cases e
  rename_i xs hxs
  split_ifs at e with ha
  split at e
  · cases e
  split at e
  · cases e
  rename_i g2 hg2
  cases e
  obtain ⟨n, vals, -, h2, h3⟩ := Marley.Props.normalize_ok rfl hg2
  exact ⟨mode, xs, n, vals, modeOf_ok hmode, rxsOf_ok hxs, ha, h2, h3,
    normalize_normalised (by simp) rfl hg2⟩

theorem withTarget_eq (g : Gen G) (t : Option (List (Int × ℝ))) :
    withTarget g t = { g with target := t <|> g.target } := by
  cases t <;> rfl

theorem prepareTarget_some {log : Bool} {j : JVal ℝ} {rs : List Reaction} {t : Option (List (Int × ℝ))}
    (e : prepareTarget log j rs = .ok t) (h : rs ≠ []) : t.isSome := by
  have key : ∀ l, finishTarget log l = .ok t → t.isSome := by
    intro l e
    unfold finishTarget at e
    split at e
    · cases e
    split at e
    · cases e
    cases e
    rfl
  unfold prepareTarget at e
  split_ifs at e with h1
  · split at e
    · cases e
    split at e
    · cases e
    exact key _ e
  · split at e
    · cases e
    exact key _ e

/-! ### The reactions -/

theorem electronReactions_made {t : Mass.Table} {atom : Int} : ∀ {l : List Int} {rs : List Reaction},
    Reaction.electronReactions t atom l = .ok rs → ∀ r, Reaction.electron r ∈ rs →
    ∃ pdg atom, Reaction.makeElectron t pdg atom = .ok r := by
  intro l
  induction l with
  | nil => intro rs h r hr; cases h; simp at hr
  | cons a l ih =>
    intro rs h r hr
    unfold Reaction.electronReactions at h
    split at h
    · cases h
    rename_i x hx
    split at h
    · cases h
    rename_i rs' hrs
    cases h
    rcases List.mem_cons.1 hr with hr | hr
    · cases hr; exact ⟨_, _, hx⟩
    · exact ih hrs r hr

theorem atomReactions_made {t : Mass.Table} : ∀ {l : List Int} {rs : List Reaction},
    Reaction.atomReactions t l = .ok rs → ∀ r, Reaction.electron r ∈ rs →
    ∃ pdg atom, Reaction.makeElectron t pdg atom = .ok r := by
  intro l
  induction l with
  | nil => intro rs h r hr; cases h; simp at hr
  | cons a l ih =>
    intro rs h r hr
    unfold Reaction.atomReactions at h
    split at h
    · cases h
    split at h
    · cases h
    rename_i x hx
    split at h
    · cases h
    rename_i rs' hrs
    cases h
    rcases List.mem_append.1 hr with hr | hr
    · exact electronReactions_made hx r hr
    · exact ih hrs r hr

theorem electronLines_made {t : Mass.Table} : ∀ {n : Nat} {line : Str} {f : Reaction.FileIn}
    {rs : List Reaction}, Reaction.electronLines t n line f = .ok rs → ∀ r, Reaction.electron r ∈ rs →
    ∃ pdg atom, Reaction.makeElectron t pdg atom = .ok r := by
  intro n
  induction n with
  | zero => intro line f rs h r hr; cases h; simp at hr
  | succ n ih =>
    intro line f rs h r hr
    unfold Reaction.electronLines at h
    split at h
    · cases h
    rename_i x hx
    dsimp only at h
    split_ifs at h with hl
    · cases h; exact atomReactions_made hx r hr
    · split at h
      · cases h
      rename_i rs' hrs
      cases h
      rcases List.mem_append.1 hr with hr | hr
      · exact atomReactions_made hx r hr
      · exact ih hrs r hr

theorem load_made {c : Reaction.Ctx} {file : Option Str} {rs : List Reaction}
    (h : Reaction.load c file = .ok rs) {r : Reaction.Electron} (hr : Reaction.electron r ∈ rs) :
    ∃ pdg atom, Reaction.makeElectron c.table pdg atom = .ok r := by
  unfold Reaction.load at h
  split at h
  · cases h
  dsimp only at h
  split at h
  · cases h
  split_ifs at h
  · exact electronLines_made h r hr
  · split at h
    · cases h
    split at h
    · cases h
    split at h
    · cases h
    split at h
    · cases h
    split at h
    · cases h
    obtain ⟨ns, rfl, -⟩ := Marley.Props.nuclearReactions_ok h
    simp at hr

/-- Every configured reaction was read from a file. -/
theorem reactions_read {v : Env} {j : JVal ℝ} {rs : List Reaction} (e : prepareReactions v j = .ok rs) :
    ∀ x ∈ rs, ∃ file l, Reaction.load v.ctx file = .ok l ∧ x ∈ l := by
  unfold prepareReactions at e
  split_ifs at e with h
  split at e
  · cases e
  · cases e; simp
  · cases e
  · intro x hx
    obtain ⟨name, -, r, t, k, hf, hm, -⟩ := reactionLoop_from e x hx
    exact ⟨_, _, (loadListed_ok hf.1).1, hm⟩
  · cases e

/-! ## C94 -/

/-- C94: a generator made from a configuration, in whatever state the configuration leaves it, has the
seed, direction, cut-offs, source, weighting, bound and de-excitation that the configuration asks for, and
the documented defaults for what it does not mention. -/
theorem C94_settings {S : Setup G} {j : JVal ℝ} {g : Gen G} {cuts : Int × Int}
    (e : createGenerator S j = .ok (g, cuts)) : Follows S j g cuts := by
  obtain ⟨seed, rot, g1, rs, t, b, nothing, h1, h2, h3, h4, h5, h6, h7, h8, h9, h10⟩ := create_steps e
  obtain ⟨m, src, w, rfl, k1, k2⟩ := prepareSource_ok rfl h4
  rw [withTarget_eq] at h9 h10
  have hg : g.seed = seed ∧ g.eng = S.init [seed % 2 ^ 32] ∧ g.rotator = rot ∧ g.source = src ∧
      g.weightFlux = w ∧ g.pdfMaxDefault = m ∧ g.deexcite = b := by
    cases nothing with
    | true => rw [h9 rfl]; exact ⟨rfl, rfl, rfl, rfl, rfl, rfl, rfl⟩
    | false =>
      obtain ⟨_, _, _, _, -, -, -, -, h, -⟩ := finish_steps (h10 rfl)
      rw [h]; exact ⟨rfl, rfl, rfl, rfl, rfl, rfl, rfl⟩
  obtain ⟨g1, g2, g3, g4, g5, g6, g7⟩ := hg
  obtain ⟨c1, c2⟩ := prepareStructure_ok h3
  refine ⟨?_, ?_, ?_, c1, c2, ?_, ?_, ?_, ?_⟩
  · rw [g1]; exact seedOf_ok h1
  · rw [g1]; exact g2
  · rw [g3]; exact (prepareDirection_follows h2).2
  · rw [g4]
    rcases k2 with ⟨spec, s, a1, a2, a3, -⟩ | ⟨a1, a2, -⟩
    · exact .inl ⟨spec, s, a1, a2, srcOf_ok a3⟩
    · refine .inr ⟨a1, ?_⟩
      rw [a2]
      simp [Gen.fresh, defaultSrc]
  · rw [g5]
    rcases k2 with ⟨spec, s, a1, a2, a3, ⟨w', a4, a5⟩ | ⟨a4, a5⟩⟩ | ⟨a1, a2, a3⟩
    · exact .inl ⟨spec, w', a1, a4, a5⟩
    · exact .inr ⟨fun spec' h => by rw [← value_unique a1 h]; exact a4, a5⟩
    · refine .inr ⟨fun spec' h => ?_, a3⟩
      rcases a1 with a1 | a1
      · exact absurd h (absent_not a1 _)
      · rw [← value_unique a1 h]; rfl
  · rw [g6]; exact k1
  · rw [g7]; exact deexciteOf_ok h7

/-- C94: unless the configuration asks for no reactions, the generator is ready for use: it has exactly the
configured reactions (C67) with the configured Coulomb corrections and the configured target (C86), at
least one reaction is for the particles of the source, the density of energies is normalised, and it stays
so if the configuration is changed later. -/
theorem C94_ready {S : Setup G} {j : JVal ℝ} {g : Gen G} {cuts : Int × Int}
    (e : createGenerator S j = .ok (g, cuts)) (hn : ¬ HasValue j "reactions".toList .null) :
    (∃ rs mode, prepareReactions S.env j = .ok rs ∧ ModeAsked j mode ∧
      List.Forall₂ (Uses S.xs mode) rs g.reactions ∧ prepareTarget S.env.log j rs = .ok g.target) ∧
    g.target.isSome ∧ (∃ x ∈ g.reactions, x.pdgA = g.source.pid) ∧ g.Normalised ∧ 0 < g.norm ∧
    g.pdfMax = g.pdfMaxDefault ∧ g.frozen = false := by
  obtain ⟨seed, rot, g1, rs, t, b, nothing, h1, h2, h3, h4, h5, h6, h7, h8, h9, h10⟩ := create_steps e
  obtain ⟨m, src, w, rfl, k1, k2⟩ := prepareSource_ok rfl h4
  have hf : nothing = false := by
    rw [Bool.eq_false_iff]
    exact fun h => hn ((noReactions_ok h8).1 h)
  rw [withTarget_eq] at h10
  obtain ⟨mode, xs, n, vals, f1, f2, f3, f4, f5, f6⟩ := finish_steps (h10 hf)
  refine ⟨⟨rs, mode, h5, f1, ?_, ?_⟩, ?_, ?_, f6, ?_, ?_, ?_⟩
  · rw [f5]; exact f2
  · rw [f5, h6]; simp [Gen.fresh]
  · have hrs : rs ≠ [] := by
      rintro rfl
      cases f2
      obtain ⟨x, hx, -⟩ := f3
      simp at hx
    have ht : t.isSome := prepareTarget_some h6 hrs
    rw [f5]
    cases t with
    | none => cases ht
    | some t => rfl
  · rw [f5]; exact f3
  · rw [f5]; exact f4
  · rw [f5]
  · rw [f5]

/-- C94: with a seed in the configuration, the time does not matter. -/
theorem C94_clock {S : Setup G} {j : JVal ℝ} {v : JVal ℝ} (h : HasValue j "seed".toList v) (clock : Nat) :
    createGenerator { S with clock := clock } j = createGenerator S j := by
  have : seedOf clock j = seedOf S.clock j := by
    unfold seedOf
    simp only [h.has, if_true]
  unfold createGenerator finishGenerator
  simp only [this]

/-- The masses that reactions use make sense: those of particles are not negative, the electron has a mass,
and the nuclear reactions that were read have massive nuclei, strengths and excitation energies that are
not negative, and transitions of a known type. -/
structure SoundData (v : Env) (j : JVal ℝ) : Prop where
  masses : ∀ id m, Mass.particleMass v.ctx.table id = .ok m → 0 ≤ m
  electron : ∀ m, Mass.particleMass v.ctx.table 11 = .ok m → 0 < m
  nuclear : ∀ rs, prepareReactions v j = .ok rs → ∀ r, Reaction.nuclear r ∈ rs → ∀ mode n,
    Xs.Nuc.of r mode = some n → n.Good

theorem createEvent_reactions {W : World G} {g g' : Gen G} {ev : Event ℝ}
    (e : g.createEvent W = some (.ok (ev, g'))) : g'.reactions = g.reactions := by
  unfold Gen.createEvent at e
  rcases hs : g.sampleReaction W with _ | ⟨x | ⟨i, KE, g1⟩⟩
  · rw [hs] at e; cases e
  · rw [hs] at e; cases e
  rw [hs] at e
  dsimp only at e
  have k1 : g1.reactions = g.reactions := by
    unfold Gen.sampleReaction at hs
    by_cases h0 : g.reactions.isEmpty
    · rw [if_pos h0] at hs; cases hs
    · rw [if_neg h0] at hs
      split at hs
      · cases hs
      · cases hs
      · split at hs
        · cases hs
        · split_ifs at hs
          · cases hs; rfl
          · cases hs
  split at e
  · cases e
  split at e
  · cases e
  · cases e
  split at e
  · cases e
  · cases e
  cases e
  exact k1

theorem events_charge {W : World G} {fuel : Nat} {D : Data}
    (hW : W.decay = Decay.decayer exact W.engine fuel D) (hF : Decay.NuclearFragments D) {E : Xs.Env G}
    (n : Nat) {g g' : Gen G} (hx : ∀ r ∈ g.reactions, Loaded E r) {evs : List (Event ℝ)}
    (e : g.createEvents W n = some (.ok (evs, g'))) : ∀ ev ∈ evs, ChargeKept ev := by
  induction n generalizing g evs with
  | zero => cases e; simp
  | succ n ih =>
    unfold Gen.createEvents at e
    rcases h1 : g.createEvent W with _ | ⟨x | ⟨ev, g1⟩⟩
    · rw [h1] at e; cases e
    · rw [h1] at e; cases e
    rw [h1] at e
    dsimp only at e
    rcases h2 : g1.createEvents W n with _ | ⟨x | ⟨evs1, g2⟩⟩
    · rw [h2] at e; cases e
    · rw [h2] at e; cases e
    rw [h2] at e
    cases e
    intro ev' h
    rcases List.mem_cons.1 h with rfl | h
    · exact C88_charge hW hF hx h1
    · exact ih (by rw [createEvent_reactions h1]; exact hx) h2 ev' h

/-- C94 from end to end: every event made with a generator that was made from a configuration conserves
energy, momentum and charge, all its particles are on their mass shells, the projectile is the configured
one (an electron neutrino if there is no source) and it moves along the configured direction. -/
theorem C94_events {S : Setup G} {j : JVal ℝ} {g : Gen G} {cuts : Int × Int}
    (e : createGenerator S j = .ok (g, cuts)) (hn : ¬ HasValue j "reactions".toList .null)
    (hd : SoundData S.env j) {W : World G} (hA : W.arith = exact) (hE : W.engine.Lawful) {fuel : Nat}
    {D : Data} (hW : W.decay = Decay.decayer exact W.engine fuel D) (hD : MassesNonneg D)
    (hF : Decay.NuclearFragments D) (hEA : S.xs.arith = exact) (hEE : S.xs.engine = W.engine) (n : Nat)
    {g' : Gen G} {evs : List (Event ℝ)} (he : g.createEvents W n = some (.ok (evs, g')))
    (hm : ∀ ev ∈ evs, ∀ p, ev.final[1]? = some p → 0 < p.mass) :
    evs.length = n ∧ ∀ ev ∈ evs, ChargeKept ev ∧
      (∀ spec s, HasValue j "source".toList spec → Source.fromSpec spec = .ok (some s) →
        PhysicalEvent s.pid ev) ∧
      (Absent j "source".toList → PhysicalEvent 12 ev) ∧
      (∀ m x y z, HasValue j "direction".toList (.obj m) → Component (.obj m) ['x'] 0 x →
        Component (.obj m) ['y'] 0 y → Component (.obj m) ['z'] 1 z →
        ∃ u, IsDirection ⟨x, y, z⟩ u ∧ Along ev u) ∧
      (Absent j "direction".toList → Along ev ⟨0, 0, 1⟩) := by
  obtain ⟨⟨rs, mode, r1, -, r2, -⟩, -⟩ := C94_ready e hn
  have hrx : ∀ x ∈ g.reactions, Physical S.xs x ∧ Loaded S.xs x := by
    intro x hx
    obtain ⟨r, hr, hu⟩ : ∃ r ∈ rs, Uses S.xs mode r x := by
      clear r1 e he
      generalize g.reactions = xs at hx r2
      induction r2 with
      | nil => simp at hx
      | cons h _ ih =>
        rcases List.mem_cons.1 hx with rfl | hx
        · exact ⟨_, by simp, h⟩
        · obtain ⟨r, hr, hu⟩ := ih hx
          exact ⟨r, by simp [hr], hu⟩
    obtain ⟨file, l, hl, hm⟩ := reactions_read r1 r hr
    cases hu with
    | nuclear r n hn => exact ⟨.nuclear n (hd.nuclear rs r1 r hr mode n hn), .nuclear hl hm hn⟩
    | electron r =>
      obtain ⟨pdg, atom, h⟩ := load_made hl hm
      exact ⟨C88_electron_setup hd.masses hd.electron h _, .electron h⟩
  have hs := C94_settings e
  have hc : Configured g.rotator := by
    obtain ⟨seed, rot, g1, rs, t, b, nothing, h1, h2, h3, h4, h5, h6, h7, h8, h9, h10⟩ := create_steps e
    obtain ⟨m, src, w, rfl, k1, k2⟩ := prepareSource_ok rfl h4
    have : g.rotator = rot := by
      rw [withTarget_eq] at h9 h10
      cases nothing with
      | true => rw [h9 rfl]
      | false =>
        obtain ⟨_, _, _, _, -, -, -, -, h, -⟩ := finish_steps (h10 rfl)
        rw [h]
    rw [this]
    exact (prepareDirection_follows h2).1
  obtain ⟨h1, h2⟩ := C88_events hA hE hW hD hEA hEE n (fun r hr => (hrx r hr).1) hc he hm
  refine ⟨h1, fun ev hev => ⟨events_charge hW hF n (fun r hr => (hrx r hr).2) he ev hev, ?_, ?_, ?_, ?_⟩⟩
  · intro spec s a1 a2
    rcases hs.source with ⟨spec', s', b1, b2, b3, -⟩ | ⟨b1, -⟩
    · obtain rfl := value_unique a1 b1
      rw [a2] at b2
      cases b2
      rw [← b3]
      exact (h2 ev hev).1
    · rcases b1 with b1 | b1
      · exact absurd a1 (absent_not b1 _)
      · obtain rfl := value_unique a1 b1
        simp [Source.fromSpec] at a2
  · intro a
    rcases hs.source with ⟨spec', s', b1, -⟩ | ⟨-, b1, -⟩
    · exact absurd b1 (absent_not a _)
    · rw [← b1]; exact (h2 ev hev).1
  · intro m x y z a1 a2 a3 a4
    rcases hs.direction with ⟨b1, -⟩ | ⟨b0, ⟨m', x', y', z', b1, b2, b3, b4, b5⟩ | ⟨b1, -⟩⟩
    · cases value_unique a1 b1
    · cases value_unique a1 b1
      obtain rfl := component_unique a2 b2
      obtain rfl := component_unique a3 b3
      obtain rfl := component_unique a4 b4
      exact ⟨_, b5, (h2 ev hev).2 b0⟩
    · exact absurd a1 (absent_not b1 _)
  · intro a
    rcases hs.direction with ⟨b1, -⟩ | ⟨b0, ⟨m', x', y', z', b1, -⟩ | ⟨-, b1⟩⟩
    · exact absurd b1 (absent_not a _)
    · exact absurd b1 (absent_not a _)
    · rw [← b1]; exact (h2 ev hev).2 b0

/-! ## Where the code differs -/

/-- An environment for the examples. -/
noncomputable def jobSetup : Setup Unit := ⟨electronEnv, exEnv, fun _ => (), 0⟩

/-- A job without reactions, with something else in it. -/
def nullJob (more : List (Str × JVal ℝ)) : JVal ℝ := .obj (("reactions".toList, .null) :: more)

theorem hasKey_cons {k k' : Str} (h : k ≠ k') (v : JVal ℝ) {m : List (Str × JVal ℝ)}
    (hm : mapFind m k' = none) : hasKey (.obj ((k, v) :: m)) k' = false := by
  simp [hasKey, mapFind, h.symm, hm]

theorem null_created {more : List (Str × JVal ℝ)}
    (h : ∀ k ∈ ["seed", "direction", "fragment_lmax", "gamma_lmax", "energy_pdf_max", "source", "target"],
      mapFind more k.toList = none)
    {b : Bool} (hb : deexciteOf (nullJob more) true = .ok b) :
    createGenerator jobSetup (nullJob more)
      = .ok ({ Gen.fresh (fun _ => ()) 0 defaultSrc with frozen := true, deexcite := b }, 5, 5) := by
  have key : ∀ k ∈ ["seed", "direction", "fragment_lmax", "gamma_lmax", "energy_pdf_max", "source", "target"],
      hasKey (nullJob more) k.toList = false := by
    intro k hk
    have hne : "reactions".toList ≠ k.toList := by
      simp only [List.mem_cons, List.not_mem_nil, or_false] at hk
      rcases hk with rfl | rfl | rfl | rfl | rfl | rfl | rfl <;> decide
    exact hasKey_cons hne _ (h k hk)
  simp only [List.mem_cons, List.not_mem_nil, or_false, forall_eq_or_imp, forall_eq] at key
  obtain ⟨k1, k2, k3, k4, k5, k6, k7⟩ := key
  have hr : HasValue (nullJob more) "reactions".toList .null := ⟨_, rfl, by simp [mapFind]⟩
  simp only [createGenerator, seedOf, k1, prepareDirection, k2, prepareStructure, cutoff, k3, k4, prepareSource,
    pdfMaxOf, k5, k6, prepareReactions, hr.has, hr.at, prepareTarget, k7, noReactions, Bool.false_eq_true,
    if_false, if_true, withTarget, jobSetup]
  simp only [Gen.fresh, hb]

/-- C94 fails for a configuration that asks for no reactions ("to partially initialize the generator"):
the generator does not normalise its density any more, whatever is added to it later. -/
theorem C94_null_violated : ∃ (S : Setup Unit) (j : JVal ℝ) (g g' : Gen Unit) (cuts : Int × Int) (r : Rx Unit),
    createGenerator S j = .ok (g, cuts) ∧ r.pdgA = g.source.pid ∧ g.addReaction r = (g', .ok ()) ∧
    g'.reactions = [r] ∧ ¬ g'.Normalised := by
  refine ⟨jobSetup, nullJob [], _, _, (5, 5), ⟨12, 1000180400, fun _ _ => .ok 2, fun _ _ _ => none⟩,
    null_created (by intro k _; rfl) (by rfl), rfl, rfl, rfl, ?_⟩
  intro h
  obtain ⟨v, hv⟩ := h [0] rfl
  rw [if_pos (by simp [Gen.fresh, defaultSrc])] at hv
  simp [Gen.ePdf, Gen.pdfLoop, Gen.weighted, Gen.fresh, defaultSrc] at hv

/-- C94 fails for `do_deexcitations` with a value that is not a boolean: it is ignored in silence, although
such values of all other keys are rejected. -/
theorem C94_deexcite_violated : ∃ (S : Setup Unit) (j : JVal ℝ) (g : Gen Unit) (cuts : Int × Int),
    HasValue j "do_deexcitations".toList (.str "false".toList) ∧ createGenerator S j = .ok (g, cuts) ∧
    g.deexcite = true := by
  have hv : HasValue (nullJob [("do_deexcitations".toList, .str "false".toList)]) "do_deexcitations".toList
      (.str "false".toList) := ⟨_, rfl, by simp [mapFind]⟩
  refine ⟨jobSetup, nullJob [("do_deexcitations".toList, .str "false".toList)], _, (5, 5), hv,
    null_created (b := true) ?_ ?_, rfl⟩
  · intro k hk
    simp only [List.mem_cons, List.not_mem_nil, or_false] at hk
    rcases hk with rfl | rfl | rfl | rfl | rfl | rfl | rfl <;> rfl
  · simp only [deexciteOf, hv.has, hv.at, if_true]

/-! ## An example -/

/-- A job with a seed, a direction, a cut-off and the reactions on the electrons of argon. -/
def argonJob : JVal ℝ := .obj [("seed".toList, .int 7),
  ("direction".toList, .obj [(['x'], .float 3), (['y'], .float 4)]),
  ("gamma_lmax".toList, .int 3), ("reactions".toList, .arr [.str ['4']])]

theorem argonJob_absent : ∀ k ∈ ["fragment_lmax", "energy_pdf_max", "source", "target", "do_deexcitations",
    "coulomb_mode"], hasKey argonJob k.toList = false := by
  intro k hk
  simp only [List.mem_cons, List.not_mem_nil, or_false] at hk
  rcases hk with rfl | rfl | rfl | rfl | rfl | rfl <;> rfl

/-- The density with reactions on electrons of which only the first is for the particles of the source. -/
theorem electron_pdf {E : Xs.Env Unit} {g : Gen Unit} {t : List (Int × ℝ)} (ht : g.target = some t) {KE : ℝ}
    {es : List Reaction.Electron} (hes : ∀ e ∈ es, e.pdgA ≠ g.source.pid) (j : Nat) (acc : ℝ) (vals : List ℝ)
    (hl : j + es.length ≤ vals.length) :
    ∃ vals', g.pdfLoop KE (es.map (Xs.elRx E)) j acc vals = .ok (acc, vals') ∧ vals'.length = vals.length := by
  induction es generalizing j acc vals with
  | nil => exact ⟨vals, rfl, rfl⟩
  | cons e es ih =>
    simp only [List.length_cons] at hl
    have h0 : g.weighted (Xs.elRx E e) g.source.pid KE = .ok 0 := by
      have : Xs.elTotal e g.source.pid KE = 0 := by
        unfold Xs.elTotal
        rw [if_pos (hes e (by simp)).symm]
      simp [Gen.weighted, Xs.elRx, this, ht]
    obtain ⟨v, h1, h2⟩ := ih (fun e h => hes e (by simp [h])) (j + 1) (acc + 0) (vals.set j 0)
      (by simp; omega)
    refine ⟨v, ?_, by rw [h2]; simp⟩
    simp only [List.map_cons, Gen.pdfLoop, h0]
    rw [if_pos (by omega), h1, add_zero]

theorem demo_mass {id : Int} {m : ℝ} (h : Mass.particleMass electronEnv.ctx.table id = .ok m) : m = 5 := by
  have h : Mass.particleMass demoTable id = .ok m := h
  have hu : Mass.microAmu ≠ 0 := by norm_num [Mass.microAmu]
  simp only [Mass.particleMass, demoTable] at h
  split_ifs at h
  cases h
  field_simp

theorem fixed_norm {g : Gen Unit} (hf : g.frozen = false) (hE : g.source.Emin = g.source.Emax) {x : ℝ}
    {v : List ℝ} (hp : ({ g with norm := 1 } : Gen Unit).ePdf g.source.Emin g.values = .ok (x, v)) (hx : 0 < x) :
    g.normalize = ({ g with pdfMax := g.pdfMaxDefault, norm := x, values := v }, .ok ()) := by
  have hn : g.newNorm = .ok (x, v) := by
    unfold Gen.newNorm
    rw [if_pos hE]
    exact hp
  unfold Gen.normalize
  rw [if_neg (by rw [hf]; simp)]
  dsimp only
  rw [newNorm_pdfMax, hn]
  dsimp only
  rw [if_neg (not_le.2 hx)]

theorem argon_reactions : ∃ es : List Reaction.Electron, prepareReactions electronEnv argonJob
      = .ok (es.map .electron) ∧ (∃ e t, es = e :: t ∧ e.pdgA = 12 ∧ (∀ x ∈ t, x.pdgA ≠ 12) ∧
        0 < Xs.elTotal e 12 10) ∧ ∀ e ∈ es, e.atom = 1000180400 := by
  obtain ⟨l4, a4, b4, c4⟩ := file4
  obtain ⟨r4, t4, rfl, f4⟩ := electron_filed a4 c4
  have hl := (loadListed_ok a4).1
  have hall : ∀ x ∈ r4 :: t4, ∃ e, x = .electron e := by
    intro x hx
    have hx3 : identity3 x ∈ (r4 :: t4).map identity3 := List.mem_map_of_mem hx
    cases x with
    | electron e => exact ⟨e, rfl⟩
    | nuclear r =>
      exfalso
      rw [c4] at hx3
      have h3 := C31_conserved hl hx
      have hp : r.proc = .nuElectronElastic := by
        simp only [identity3, sixNeutrinos, List.flatMap_cons, List.flatMap_nil, List.map_cons, List.map_nil,
          List.append_nil, List.mem_cons, Prod.mk.injEq, List.not_mem_nil, or_false] at hx3
        rcases hx3 with h | h | h | h | h | h <;> exact h.1
      rw [hp] at h3
      simp at h3
  obtain ⟨es, hes⟩ : ∃ es : List Reaction.Electron, r4 :: t4 = es.map .electron := by
    clear hl f4 a4 b4 c4
    generalize r4 :: t4 = l at hall
    induction l with
    | nil => exact ⟨[], rfl⟩
    | cons x l ih =>
      obtain ⟨e, rfl⟩ := hall x (by simp)
      obtain ⟨es, rfl⟩ := ih (fun y hy => hall y (by simp [hy]))
      exact ⟨e :: es, rfl⟩
  have hr : HasValue argonJob "reactions".toList (.arr [.str ['4']]) := ⟨_, rfl, rfl⟩
  refine ⟨es, ?_, ?_, ?_⟩
  · simp only [prepareReactions, hr.has, hr.at, if_true]
    rw [loop_step f4 rfl, ← hes]
    simp [reactionLoop, Except.map]
  · rw [hes] at c4
    cases es with
    | nil => simp at hes
    | cons e t =>
      simp only [identity3, sixNeutrinos, List.flatMap_cons, List.flatMap_nil, List.map_cons, List.map_nil,
        List.append_nil, List.cons.injEq, Prod.mk.injEq, List.map_map] at c4
      obtain ⟨⟨-, h1, h2⟩, h3⟩ := c4
      refine ⟨e, t, rfl, h1, ?_, ?_⟩
      · intro x hx
        have := List.mem_map_of_mem (f := identity3 ∘ Reaction.electron) hx
        rw [h3] at this
        simp only [Function.comp, identity3, List.mem_cons, Prod.mk.injEq, List.not_mem_nil, or_false] at this
        rcases this with h | h | h | h | h <;> rw [h.2.1] <;> decide
      · obtain ⟨pdg, atom, hm⟩ := load_made hl (r := e) (by rw [hes]; simp)
        have hme : e.ma = 5 ∧ e.mb = 5 ∧ e.mc = 5 ∧ e.md = 5 ∧ e.g2 = Reaction.sin2thetaw := by
          unfold Reaction.makeElectron at hm
          split at hm
          · cases hm
          split at hm
          · cases hm
          split at hm
          · cases hm
          rename_i hp1
          split at hm
          · cases hm
          rename_i hp2
          split at hm
          · cases hm
          rename_i hp3
          split at hm
          · cases hm
          rename_i hg
          cases hm
          subst h1
          simp only [Reaction.couplings, if_true] at hg
          cases hg
          exact ⟨demo_mass hp1, demo_mass hp2, demo_mass hp3, demo_mass hp2, rfl⟩
        obtain ⟨m1, m2, m3, m4, m5⟩ := hme
        have := C40_positive (r := e) (KEa := 10) ⟨by rw [m1]; norm_num, by rw [m2]; norm_num,
          by rw [m3]; norm_num, by rw [m4, m2]⟩ (by norm_num)
          (by norm_num [Kin.threshold, Xs.elMasses, m1, m2, m3, m4]) (by rw [h2]; decide +kernel)
          (.inr (by rw [m5]; norm_num [Reaction.sin2thetaw])) (by rw [m1, m3])
        rwa [h1] at this
  · intro e he
    have := List.mem_map_of_mem (f := identity3) (List.mem_map_of_mem (f := Reaction.electron) he)
    rw [← hes, c4] at this
    simp only [identity3, sixNeutrinos, List.flatMap_cons, List.flatMap_nil, List.map_cons, List.map_nil,
        List.append_nil, List.mem_cons, Prod.mk.injEq, List.not_mem_nil, or_false] at this
    rcases this with h | h | h | h | h | h <;> exact h.2.2

theorem argon_describe {t : List (Int × ℝ)} : ∀ {es : List Reaction.Electron},
    (∀ e ∈ es, e.atom = 1000180400) → describe 12 t (es.map .electron) = .ok () := by
  intro es
  induction es with
  | nil => intro _; rfl
  | cons e es ih =>
    intro h
    obtain ⟨s, hs⟩ : ∃ s, Target.atomName 1000180400 = .ok s := by
      have : (Target.atomName 1000180400).toOption.isSome = true := by decide +kernel
      cases hx : Target.atomName 1000180400 with
      | error _ => rw [hx] at this; cases this
      | ok s => exact ⟨s, rfl⟩
    simp only [List.map_cons, describe, targetOf, h e (by simp), procOf, hs,
      ih (fun x hx => h x (by simp [hx])), ite_self]

/-- Non-vacuity: the job is accepted, has reactions, and its data make sense. -/
example : (∃ g cuts, createGenerator jobSetup argonJob = .ok (g, cuts) ∧ g.reactions.length ≠ 0 ∧
      g.seed = 7 ∧ cuts = (5, 3)) ∧
    ¬ HasValue argonJob "reactions".toList .null ∧ SoundData electronEnv argonJob := by
  obtain ⟨es, h1, ⟨e, t, rfl, h2, h3, h4⟩, h5⟩ := argon_reactions
  have hr : HasValue argonJob "reactions".toList (.arr [.str ['4']]) := ⟨_, rfl, rfl⟩
  have hab := argonJob_absent
  simp only [List.mem_cons, List.not_mem_nil, or_false, forall_eq_or_imp, forall_eq] at hab
  obtain ⟨k1, k2, k3, k4, k5, k6⟩ := hab
  refine ⟨?_, fun h => (by cases value_unique hr h), ?_, ?_, ?_⟩
  · have hs : HasValue argonJob "seed".toList (.int 7) := ⟨_, rfl, rfl⟩
    have hd : HasValue argonJob "direction".toList (.obj [(['x'], .float 3), (['y'], .float 4)]) :=
      ⟨_, rfl, rfl⟩
    have hg : HasValue argonJob "gamma_lmax".toList (.int 3) := ⟨_, rfl, rfl⟩
    have hseed : seedOf 0 argonJob = .ok 7 := by
      simp only [seedOf, hs.has, hs.at, if_true, Json.toLong?, toUInt64]
      rfl
    obtain ⟨rot, hrot⟩ : ∃ rot, prepareDirection (Rotator.fresh ⟨0, 0, 1⟩) argonJob = .ok rot := by
      obtain ⟨rot, hrot⟩ := setDirection_ok (r := Rotator.fresh ⟨0, 0, 1⟩) (d := ⟨3, 4, 1⟩)
        (by norm_num [V3.Nonzero])
      refine ⟨rot, ?_⟩
      simp only [prepareDirection, hd.has, hd.at, if_true]
      exact hrot
    have hcut : prepareStructure argonJob (5, 5) = .ok (5, 3) := by
      simp only [prepareStructure, cutoff, k1, hg.has, hg.at, if_true, Json.toLong?, Bool.false_eq_true, if_false]
      rfl
    obtain ⟨tm, ht1, ht2, -⟩ := C86_default_target false (j := argonJob) (rs := (e :: t).map .electron)
      k4 (by simp) (by
        intro r hr
        obtain ⟨x, -, rfl⟩ := List.mem_map.1 hr
        exact ⟨_, rfl⟩) (by intro h; cases h)
    have hfr : 0 < Target.fraction tm e.atom := by
      have := ht2 (.electron e) (by simp)
      simp only [atomOf] at this
      rw [this]
      have : 0 < ((((e :: t).map Reaction.electron).map atomOf).dedup.length : ℝ) := by
        exact_mod_cast List.length_pos_of_mem (List.mem_dedup.2 (List.mem_map_of_mem
          (List.mem_map_of_mem (f := Reaction.electron) (List.mem_cons_self (a := e)))))
      positivity
    have hno : noReactions argonJob = .ok false := by
      simp only [noReactions, hr.has, hr.at, if_true]
    have hmode : coulombModeOf argonJob = .ok .fermiAndMema := by
      simp only [coulombModeOf, k6, Bool.false_eq_true, if_false]
    have hrx : ∀ (m : Utils.CoulombMode) (l : List Reaction.Electron),
        rxsOf exEnv m (l.map .electron) = .ok (l.map (Xs.elRx exEnv)) := by
      intro m l
      induction l with
      | nil => rfl
      | cons x l ih => simp only [List.map_cons, rxsOf, rxOf, ih]
    let g0 : Gen Unit := { Gen.fresh (fun _ => ()) 7 defaultSrc with rotator := rot, target := some tm }
    let xs := (e :: t).map (Xs.elRx exEnv)
    obtain ⟨g2, hg2⟩ : ∃ g2, ({ g0 with reactions := xs, values := xs.map (fun _ => 0), frozen := false } :
        Gen Unit).normalize = (g2, .ok ()) := by
      let gp : Gen Unit := { g0 with reactions := xs, values := xs.map (fun _ => 0), norm := 1 }
      have hpdf : ∃ x v, 0 < x ∧ gp.ePdf 10 (xs.map (fun _ => 0)) = .ok (x, v) := by
        obtain ⟨v, hv, -⟩ := electron_pdf (E := exEnv) (KE := 10) (g := gp) rfl (es := t) h3 1 (0 + Xs.elTotal e 12 10 * Target.fraction tm e.atom)
          ((xs.map (fun _ => 0)).set 0 (Xs.elTotal e 12 10 * Target.fraction tm e.atom)) (by simp [xs]; omega)
        refine ⟨_, v, mul_pos h4 hfr, ?_⟩
        have hw : Gen.weighted gp (Xs.elRx exEnv e) 12 10
            = .ok (Xs.elTotal e 12 10 * Target.fraction tm e.atom) := rfl
        have hp : Gen.pdfLoop gp 10 xs 0 0 (xs.map (fun _ => 0))
            = .ok (0 + Xs.elTotal e 12 10 * Target.fraction tm e.atom, v) := by
          show Gen.pdfLoop _ 10 (Xs.elRx exEnv e :: t.map (Xs.elRx exEnv)) 0 0 _ = _
          rw [Gen.pdfLoop]
          rw [show (Gen.source gp).pid = 12 from rfl, hw]
          dsimp only
          rw [if_pos (by simp [xs])]
          exact hv
        unfold Gen.ePdf
        rw [show Gen.reactions gp = xs from rfl, hp]
        simp [gp, g0, Gen.fresh, defaultSrc]
      obtain ⟨x, v, hx, hp⟩ := hpdf
      exact ⟨_, fixed_norm rfl rfl hp hx⟩
    have hfin : finishGenerator jobSetup argonJob { g0 with frozen := true } ((e :: t).map .electron)
        = .ok g2 := by
      unfold finishGenerator
      rw [hmode]
      dsimp only
      rw [show rxsOf jobSetup.xs .fermiAndMema ((e :: t).map .electron) = .ok xs from hrx _ _]
      dsimp only
      rw [if_pos ⟨Xs.elRx exEnv e, by simp [xs], h2⟩,
        show describe g0.source.pid (Option.getD g0.target []) ((e :: t).map .electron) = .ok ()
          from argon_describe h5]
      dsimp only
      rw [hg2]
    obtain ⟨n, vals, -, -, hg2'⟩ := Marley.Props.normalize_ok rfl hg2
    refine ⟨g2, (5, 3), ?_, by rw [hg2']; simp [xs], by rw [hg2']; rfl, rfl⟩
    unfold createGenerator
    rw [show seedOf jobSetup.clock argonJob = .ok 7 from hseed]
    dsimp only
    rw [show prepareDirection (Gen.rotator { Gen.fresh jobSetup.init 7 defaultSrc with frozen := true }) argonJob
      = .ok rot from hrot]
    dsimp only
    rw [hcut]
    simp only [prepareSource, pdfMaxOf, k2, k3, Bool.false_eq_true, if_false]
    rw [show prepareReactions jobSetup.env argonJob = _ from h1]
    dsimp only
    rw [show prepareTarget jobSetup.env.log argonJob ((e :: t).map .electron) = _ from ht1]
    simp only [deexciteOf, k5, Bool.false_eq_true, if_false, hno]
    split
    · rename_i x hx
      exact absurd (hx.symm.trans hfin) (by simp)
    · rename_i g3 hx
      have h := hx.symm.trans hfin
      cases h
      rfl
  · intro id m h
    rw [demo_mass h]; norm_num
  · intro m h
    rw [demo_mass h]; norm_num
  · intro rs hrs r hr
    rw [h1] at hrs
    cases hrs
    simp at hr

end Marley.Props
