import Verif.Lemmas.Ends
import Verif.Props.FinitelyMany
import Verif.Props.Electron
import Verif.Props.CascadeLaw

/-!
# C134: creating events ends with probability one

`Ends` and `Often` are in `Verif/Spec/Ends.lean`.  The arithmetic is exact.
-/

set_option autoImplicit false

namespace Marley.Props
open Marley Marley.Sampling Marley.Gen Marley.Xs MeasureTheory
open Marley.Reaction (MatEl)
open Marley.Kin (twoTwoScatter makeEvent threshold)
open Marley.Rot (Rotator)

/-! ### Rejection sampling -/

/-- **C134**, rejection sampling: with an ideal engine it ends with probability one, for every
function that is bounded above on the range and not small on some interval in it (or positive, if the range is a
single point), whatever bound is given, and also if the bound is to be found first. -/
theorem C134_sampling {Ω : Type} [MeasurableSpace Ω] {μ : Measure Ω} {E : Engine Ω} (hI : Ideal E μ)
    {f : ℝ → ℝ} {xmin xmax safety tolerance : ℝ} (hs : 0 ≤ safety) (ht : 0 < tolerance) (m : Option ℝ)
    (hb : ∃ M, ∀ x ∈ Set.Icc xmin xmax, f x ≤ M)
    (hf : (∃ a b δ, xmin ≤ a ∧ a < b ∧ b ≤ xmax ∧ 0 < δ ∧ ∀ x ∈ Set.Ioo a b, δ ≤ f x) ∨
      (xmin = xmax ∧ 0 < f xmin)) :
    ∀ᵐ ω ∂μ, Ends fun n => rejectionSample exact E n (fun x (_ : Unit) => .ok (f x, ())) xmin xmax m
      safety tolerance ω () := by
  have hP : Plenty (fun x (_ : Unit) => .ok (f x, ())) (fun _ => True) xmin xmax := by
    obtain ⟨M, hM⟩ := hb
    rcases hf with ⟨a, b, δ, h1, h2, h3, h4, h5⟩ | ⟨rfl, h1⟩
    · exact .interval ⟨M, fun x hx st _ v st' h => by cases h; exact ⟨hM x hx, trivial⟩⟩
        ⟨a, b, δ, h1, h2, h3, h4, fun x hx st _ v st' h => by cases h; exact h5 x hx⟩
    · exact .point h1 fun st _ v st' h => by cases h; exact ⟨le_rfl, le_rfl, trivial⟩
  filter_upwards [often_ae hI] with ω ho
  obtain ⟨N, r, h, -⟩ := rejectionSample_ends hs ht hP (fun _ _ _ _ _ _ _ => trivial) ho m
    (st := ()) trivial
  exact ⟨N, r, h⟩

/-- A triangular density. -/
example : ∀ᵐ ω ∂coins, Ends fun n => rejectionSample exact reader n (fun x (_ : Unit) => .ok (x, ()))
    0 1 none 1.01 1e-8 ω () :=
  C134_sampling (f := fun x => x) coin_ideal (by norm_num) (by norm_num) none ⟨1, fun x hx => hx.2⟩
    (Or.inl ⟨1 / 2, 1, 1 / 2, by norm_num, by norm_num, le_rfl, by norm_num, fun x hx => hx.1.le⟩)

/-- With a function that is nowhere positive and a positive bound it never ends. -/
example (E : Engine Unit) (h : 0 ≤ (E.draw ()).1) (n : Nat) :
    rejectionSample exact E n (fun _ (_ : Unit) => .ok (-1, ())) 0 1 (some 1) 1.01 1e-8 () () = none := by
  show rejectLoop exact E _ 0 1 1.01 n 1 () () = none
  induction n with
  | zero => rfl
  | succ n ih =>
    simp only [rejectLoop, uniform_exact]
    rw [if_pos (by simp only [sub_zero, mul_one, add_zero]; linarith), if_neg (by norm_num)]
    exact ih

/-! ### Reactions -/

/-- The surroundings of a reaction when loops may be passed `n` times. -/
def fueled (B : Env Unit) (n : Nat) : Env Unit := { B with fuel := n }

theorem cosDensity_value {m : MatEl} {c beta v : ℝ} (h : cosDensity m c beta = .ok v) :
    v = (1 + beta * c) / 2 ∨ v = (3 - beta * c) / 6 := by
  unfold cosDensity cosPdf at h
  by_cases h0 : m.type = 0
  · rw [if_pos h0] at h
    have : ((.num 1 + .num beta * .num c) * .num 0.5 : Val) = .num ((1 + beta * c) * 0.5) := rfl
    rw [this] at h
    simp only [Except.ok.injEq] at h
    left; rw [← h]; ring
  · rw [if_neg h0] at h
    by_cases h1 : m.type = 1
    · rw [if_pos h1] at h
      have : ((.num 3 - .num beta * .num c) / .num 3 * .num 0.5 : Val)
          = .num ((3 - beta * c) / 3 * 0.5) := by
        have e : ((.num 3 - .num beta * .num c) / .num 3 : Val) = .num ((3 - beta * c) / 3) := by
          show Val.div _ _ = _
          simp [Val.div, show (Val.num 3 - .num beta * .num c : Val) = .num (3 - beta * c) from rfl]
        rw [e]; rfl
      rw [this] at h
      simp only [Except.ok.injEq] at h
      right; rw [← h]; ring
    · rw [if_neg h1] at h; cases h

theorem cos_plenty (m : MatEl) (beta : ℝ) :
    Plenty (fun c (_ : Unit) => (cosDensity m c beta).map (·, ())) (fun _ => True) (-1) 1 := by
  have key : ∀ {c v : ℝ} {st' : Unit}, (cosDensity m c beta).map (·, ()) = .ok (v, st') →
      v = (1 + beta * c) / 2 ∨ v = (3 - beta * c) / 6 := by
    intro c v st' h
    cases hc : cosDensity m c beta with
    | error e => rw [hc] at h; cases h
    | ok x =>
      rw [hc] at h
      simp only [Except.map, Except.ok.injEq, Prod.mk.injEq] at h
      rw [← h.1]
      exact cosDensity_value hc
  have hb := abs_nonneg beta
  have habs : ∀ {c r : ℝ}, |c| ≤ r → |beta * c| ≤ |beta| * r := by
    intro c r h
    rw [abs_mul]
    exact mul_le_mul_of_nonneg_left h hb
  apply Plenty.interval
  · refine ⟨3 + |beta|, fun c hc st _ v st' h => ⟨?_, trivial⟩⟩
    have := abs_le.1 (habs (abs_le.2 hc))
    rcases key h with rfl | rfl <;> linarith
  · have hp : 0 < 2 * (1 + |beta|) := by linarith
    refine ⟨-(1 / (2 * (1 + |beta|))), 1 / (2 * (1 + |beta|)), 1 / 4, ?_, ?_, ?_, by norm_num,
      fun c hc st _ v st' h => ?_⟩
    · rw [neg_le_neg_iff, div_le_one hp]; linarith
    · have : 0 < 1 / (2 * (1 + |beta|)) := by positivity
      linarith
    · rw [div_le_one hp]; linarith
    · have h1 := abs_le.1 (habs (abs_le.2 ⟨hc.1.le, hc.2.le⟩))
      have h2 : |beta| * (1 / (2 * (1 + |beta|))) ≤ 1 / 2 := by
        rw [mul_one_div, div_le_iff₀ hp]; linarith
      rcases key h with rfl | rfl <;> linarith

theorem sampleCos_ends {G : Type} {E : Engine G} {g : G} {B : Env Unit} (hB : B.arith = exact)
    (m : MatEl) (beta : ℝ) (ho : Often E g) : Ends fun n => sampleCos ((fueled B n).on E) m beta g := by
  unfold sampleCos
  cases cosMax m beta with
  | error e => exact .of _
  | ok mx =>
    obtain ⟨N, r, h1, -⟩ := rejectionSample_ends (safety := 1.01) (ε := 1e-8) (by norm_num)
      (by norm_num) (cos_plenty m beta) (fun _ _ _ _ _ _ _ => trivial) ho (some mx) (st := ()) trivial
    cases r with
    | error e =>
      refine ⟨N, .error e, fun n hn => ?_⟩
      simp only [fueled, Env.on, hB, h1 n hn]
    | ok q =>
      refine ⟨N, .ok (q.x, q.gen), fun n hn => ?_⟩
      simp only [fueled, Env.on, hB, h1 n hn]

/-- **C134**, nuclear reactions: with numbers that come often everywhere, an event is made or an
exception is thrown, whatever the reaction, the projectile and its energy. -/
theorem C134_nuclear {G : Type} {E : Engine G} {g : G} {B : Env Unit} (hB : B.arith = exact) (r : Nuc)
    (pdg : Int) (KEa : ℝ) (ho : Often E g) :
    Ends fun n => r.createEvent ((fueled B n).on E) pdg KEa g := by
  have hch : ∀ n, r.choose ((fueled B n).on E) pdg KEa g = r.choose (B.on E) pdg KEa g := fun n => rfl
  unfold Nuc.createEvent
  simp only [hch]
  cases h1 : r.choose (B.on E) pdg KEa g with
  | error e => exact .of _
  | ok v =>
    obtain ⟨m, g1⟩ := v
    obtain ⟨k, rfl⟩ := determined_after (choose_determined B r pdg KEa)
      (show some (r.choose (B.on E) pdg KEa g) = _ by rw [h1])
    dsimp only
    cases Utils.fdiv (twoTwoScatter (r.masses m.levelEnergy) KEa).pc
        (twoTwoScatter (r.masses m.levelEnergy) KEa).Ec with
    | none => exact .of _
    | some beta =>
      obtain ⟨N, v, hN⟩ := sampleCos_ends hB m beta (ho.after k)
      dsimp only at hN ⊢
      cases v with
      | error e => exact ⟨N, .error e, fun n hn => by simp only [hN n hn]⟩
      | ok v =>
        refine ⟨N, ?_, fun n hn => ?_⟩
        · exact (match B.gs r.pdgB with
          | .error e => .error e
          | .ok (twoJgs, Pgs) =>
            match spinParity (B.on E) r m twoJgs Pgs (uniform B.arith E 0 (2 * Real.pi) false v.2).2 with
            | .error e => .error e
            | .ok (twoJ, P, g) =>
              match makeEvent (r.masses m.levelEnergy) KEa (twoTwoScatter (r.masses m.levelEnergy) KEa)
                  v.1 (uniform B.arith E 0 (2 * Real.pi) false v.2).1 m.levelEnergy twoJ P with
              | .error e => .error e
              | .ok ev => match setCharges r ev with
                | .error e => .error e
                | .ok ev => .ok (ev, g))
        · simp only [hN n hn]
          have hsp : ∀ J P g, spinParity ((fueled B n).on E) r m J P g = spinParity (B.on E) r m J P g :=
            fun _ _ _ => rfl
          simp only [hsp]
          simp only [fueled, Env.on]
          cases B.gs r.pdgB with
          | error e => rfl
          | ok w =>
            obtain ⟨J, P⟩ := w
            dsimp only
            generalize spinParity _ _ _ _ _ _ = y
            cases y with
            | error e => rfl
            | ok y =>
              obtain ⟨J, P, g2⟩ := y
              dsimp only
              generalize makeEvent _ _ _ _ _ _ _ _ = z
              cases z with
              | error e => rfl
              | ok z => dsimp only; cases setCharges r z <;> rfl

theorem elDiff_continuous (r : Reaction.Electron) (pdg : Int) (KEa : ℝ) :
    Continuous (elDiff r pdg KEa) := by
  unfold elDiff
  split_ifs
  · exact continuous_const
  · exact continuous_const
  · dsimp only; fun_prop

/-- **C134**, scattering on electrons. -/
theorem C134_electron {G : Type} {E : Engine G} {g : G} {B : Env Unit} (hB : B.arith = exact)
    {r : Reaction.Electron} (hr : ElectronGood r) (pdg : Int) {KEa : ℝ} (hK : 0 ≤ KEa) (ho : Often E g) :
    Ends fun n => elCreate ((fueled B n).on E) r pdg KEa g := by
  unfold elCreate
  by_cases h1 : pdg ≠ r.pdgA
  · simp only [if_pos h1]; exact .of _
  simp only [if_neg h1]
  by_cases h2 : KEa < threshold (elMasses r)
  · simp only [if_pos h2]; exact .of _
  simp only [if_neg h2]
  have hrej : ∃ N q, ∀ n, N ≤ n → rejectionSample exact E n
      (fun c (_ : Unit) => .ok (elDiff r pdg KEa c, ())) (-1) 1
      (some (elBound r pdg KEa (twoTwoScatter (elMasses r) KEa).s)) 1.01 1e-8 g () = some q := by
    have hbd := C41_bound r pdg KEa
    obtain ⟨c0, c1, c2, hat⟩ := C41_attained hr pdg hK
    set m := elBound r pdg KEa (twoTwoScatter (elMasses r) KEa).s with hm
    by_cases hpos : 0 < m
    · have hP : Plenty (fun c (_ : Unit) => .ok (elDiff r pdg KEa c, ())) (fun _ => True) (-1) 1 := by
        apply Plenty.interval
        · refine ⟨m, fun c hc st _ v st' h => ⟨?_, trivial⟩⟩
          cases h
          exact hbd c hc.1 hc.2
        · have hopen : IsOpen {c | m / 2 < elDiff r pdg KEa c} :=
            isOpen_lt continuous_const (elDiff_continuous r pdg KEa)
          obtain ⟨ε, hε, hball⟩ := Metric.isOpen_iff.1 hopen c0
            (show m / 2 < elDiff r pdg KEa c0 by rw [← hat]; linarith)
          refine ⟨max (-1) (c0 - ε), min 1 (c0 + ε), m / 2, le_max_left _ _, ?_, min_le_left _ _,
            by linarith, fun c hc st _ v st' h => ?_⟩
          · rw [max_lt_iff, lt_min_iff, lt_min_iff]
            refine ⟨⟨by norm_num, by linarith⟩, ⟨by linarith, by linarith⟩⟩
          · cases h
            have h3 := lt_of_le_of_lt (le_max_right _ _) hc.1
            have h4 := lt_of_lt_of_le hc.2 (min_le_right _ _)
            have : c ∈ Metric.ball c0 ε := by
              rw [Metric.mem_ball, Real.dist_eq, abs_lt]
              constructor <;> linarith
            exact (hball this).le
      obtain ⟨N, q, k1, -⟩ := rejectionSample_ends (safety := 1.01) (ε := 1e-8) (by norm_num)
        (by norm_num) hP (fun _ _ _ _ _ _ _ => trivial) ho (some m) (st := ()) trivial
      exact ⟨N, q, k1⟩
    · have hu := ho.inside 0
      have hx1 : (-1 : ℝ) ≤ (E.draw g).1 * (1 - -1) + -1 := by
        have : 0 ≤ (E.draw g).1 := hu.1
        linarith
      have hx2 : (E.draw g).1 * (1 - -1) + -1 ≤ (1 : ℝ) := by
        have : (E.draw g).1 < 1 := hu.2
        linarith
      have hm0 : m = 0 := by
        refine le_antisymm (not_lt.1 hpos) ?_
        rw [hat]
        exact (C40_nonneg hr pdg hK c1 c2).1
      have hd0 := (C40_nonneg hr pdg hK hx1 hx2).1
      refine ⟨1, ?_, fun n hn => ?_⟩
      · exact .ok ⟨(E.draw g).1 * (1 - -1) + -1, 0,
          if elDiff r pdg KEa ((E.draw g).1 * (1 - -1) + -1) > m then
            elDiff r pdg KEa ((E.draw g).1 * (1 - -1) + -1) * 1.01 else m,
          (E.draw (E.draw g).2).2, ()⟩
      · obtain ⟨n, rfl⟩ : ∃ k, n = k + 1 := ⟨n - 1, by omega⟩
        simp only [rejectionSample, rejectLoop, uniform_exact, hm0]
        rw [if_neg (by simpa using hd0)]
        simp
  obtain ⟨N, q, hN⟩ := hrej
  cases q with
  | error e =>
    refine ⟨N, .error e, fun n hn => ?_⟩
    simp only [fueled, Env.on, hB, hN n hn]
  | ok q =>
    refine ⟨N, ?_, fun n hn => ?_⟩
    · exact (match makeEvent (elMasses r) KEa (twoTwoScatter (elMasses r) KEa) q.x
          (uniform exact E 0 (2 * Real.pi) false q.gen).1 0 1 ⟨true⟩ with
        | .error e => .error e
        | .ok ev => .ok (ev, (uniform exact E 0 (2 * Real.pi) false q.gen).2))
    · simp only [fueled, Env.on, hB, hN n hn]
      generalize makeEvent _ _ _ _ _ _ _ _ = z
      cases z <;> rfl

/-! ### Generators -/

/-- A reaction whose loops may be passed any number of times. -/
structure Loops where
  pdgA : Int
  atom : Int
  totalXs : Int → ℝ → Res ℝ
  create : Nat → Int → ℝ → Sampler (Event ℝ)

/-- The reaction when they may be passed `n` times. -/
def Loops.at (r : Loops) (n : Nat) : RxPlan := ⟨r.pdgA, r.atom, r.totalXs, r.create n⟩

/-- A generator whose loops may be passed any number of times; `base` has everything but the
reactions and the de-excitation. -/
structure Family where
  base : Plan
  rx : List Loops
  dec : Nat → Event ℝ → Sampler (Event ℝ)

/-- The generator when they may be passed `n` times. -/
def Family.plan (F : Family) (n : Nat) : Plan :=
  { F.base with fuel := n, reactions := F.rx.map (·.at n), decay := F.dec n }

/-- A generator that can sample energies: the rates of the reactions with cross sections `s` are
bounded on the range of the source, and they are not small on some interval, or the source has a single energy, with
a rate that is not zero. -/
structure Workable (F : Family) (s : Nat → ℝ → ℝ) : Prop where
  arith : F.base.arith = exact
  cached : F.base.values.length = F.rx.length
  sections : CrossSections ((F.plan 0).gen silent ()) s
  norm : 0 < F.base.norm
  bounded : ∃ M, ∀ e ∈ Set.Icc F.base.source.Emin F.base.source.Emax,
    rates ((F.plan 0).gen silent ()) s e ≤ M
  somewhere : (∃ a b δ, F.base.source.Emin ≤ a ∧ a < b ∧ b ≤ F.base.source.Emax ∧ 0 < δ ∧
    ∀ e ∈ Set.Ioo a b, δ ≤ rates ((F.plan 0).gen silent ()) s e) ∨
    (F.base.source.Emin = F.base.source.Emax ∧ 0 < rates ((F.plan 0).gen silent ()) s F.base.source.Emin)

/-- The reactions and the de-excitation end, with the numbers of an engine that come often
everywhere: the reactions at the energies of the source, the de-excitation for the events that the
reactions make there. -/
structure Parts {G : Type} (E : Engine G) (F : Family) : Prop where
  finite : ∀ n, (F.plan n).Finite
  reactions : ∀ r ∈ F.rx, ∀ e ∈ Set.Icc F.base.source.Emin F.base.source.Emax, ∀ g, Often E g →
    Ends fun n => r.create n F.base.source.pid e G E g
  decays : F.base.deexcite = true → ∀ r ∈ F.rx,
    ∀ e ∈ Set.Icc F.base.source.Emin F.base.source.Emax, ∀ g, Often E g → ∀ n ev g',
    r.create n F.base.source.pid e G E g = some (.ok (ev, g')) → Ends fun n => F.dec n ev G E g'

section
variable {G : Type} {E : Engine G} {F : Family} {s : Nat → ℝ → ℝ}

/-- The generator with another cache. -/
def Family.cache (F : Family) (m : Option ℝ) (vals : List ℝ) (r : Rotator) : Family :=
  { F with base := { F.base with pdfMax := m, values := vals, rotator := r } }

theorem family_pdf (F : Family) (n : Nat) (E : Engine G) (g : G) :
    ((F.plan n).gen E g).ePdf = ((F.plan 0).gen silent ()).ePdf := by
  have hl : ∀ e (rs : List Loops) j acc vals,
      ((F.plan n).gen E g).pdfLoop e (rs.map ((·.rx E) ∘ (·.at n))) j acc vals
        = ((F.plan 0).gen silent ()).pdfLoop e (rs.map ((·.rx silent) ∘ (·.at 0))) j acc vals := by
    intro e rs
    induction rs with
    | nil => intros; rfl
    | cons r rs ih =>
      intros j acc vals
      have hw : ((F.plan n).gen E g).weighted ((r.at n).rx E) ((F.plan n).gen E g).source.pid e
          = ((F.plan 0).gen silent ()).weighted ((r.at 0).rx silent)
            ((F.plan 0).gen silent ()).source.pid e := rfl
      simp only [List.map_cons, Gen.pdfLoop, ih, Function.comp_apply, hw]
  funext e vals
  have h2 := hl e F.rx 0 0 vals
  unfold Gen.ePdf
  rw [show ((F.plan n).gen E g).reactions = F.rx.map ((·.rx E) ∘ (·.at n)) by
      simp [Plan.gen, Family.plan],
    show ((F.plan 0).gen silent ()).reactions = F.rx.map ((·.rx silent) ∘ (·.at 0)) by
      simp [Plan.gen, Family.plan], h2]
  rfl

theorem family_plenty (h : Workable F s) :
    Plenty ((F.plan 0).gen silent ()).ePdf ((F.plan 0).gen silent ()).Sized
      F.base.source.Emin F.base.source.Emax := by
  have hn : ((F.plan 0).gen silent ()).norm ≠ 0 := h.norm.ne'
  have hn' : 0 < ((F.plan 0).gen silent ()).norm := h.norm
  obtain ⟨M, hM⟩ := h.bounded
  have hup : ∀ e ∈ Set.Icc F.base.source.Emin F.base.source.Emax, ∀ st,
      ((F.plan 0).gen silent ()).Sized st → ∀ v st', ((F.plan 0).gen silent ()).ePdf e st = .ok (v, st') →
      v = rates ((F.plan 0).gen silent ()) s e / ((F.plan 0).gen silent ()).norm ∧
        v ≤ M / ((F.plan 0).gen silent ()).norm ∧ ((F.plan 0).gen silent ()).Sized st' := by
    intro e he st hst v st' hv
    have hk := (ePdf_cached _).keep _ _ _ _ hst hv
    rw [ePdf_density h.sections hn he hst] at hv
    simp only [Except.ok.injEq, Prod.mk.injEq] at hv
    refine ⟨?_, ?_, hk⟩ <;> rw [← hv.1, rates_density h.sections]
    exact div_le_div_of_nonneg_right (hM e he) hn'.le
  rcases h.somewhere with ⟨a, b, δ, ha, hab, hb, hδ, hs⟩ | ⟨he, hs⟩
  · refine .interval ⟨_, fun e he st hst v st' hv => (hup e he st hst v st' hv).2⟩
      ⟨a, b, δ / ((F.plan 0).gen silent ()).norm, ha, hab, hb, div_pos hδ hn', fun e he st hst v st' hv => ?_⟩
    rw [(hup e ⟨ha.trans he.1.le, he.2.le.trans hb⟩ st hst v st' hv).1]
    exact div_le_div_of_nonneg_right (hs e he) hn'.le
  · have hmem : F.base.source.Emin ∈ Set.Icc F.base.source.Emin F.base.source.Emax := ⟨le_rfl, he.le⟩
    rw [← he] at hup hmem ⊢
    exact .point (div_pos hs hn') fun st hst v st' hv =>
      ⟨(hup _ hmem st hst v st' hv).1.ge, (hup _ hmem st hst v st' hv).2⟩

theorem sampleReaction_ends (h : Workable F s) {g : G} (ho : Often E g) :
    ∃ N, ∃ r : Res (Nat × ℝ × Option ℝ × List ℝ × G),
      (∀ n, N ≤ n → ((F.plan n).gen E g).sampleReaction ((F.plan n).world E)
        = some (r.map fun x => (x.1, x.2.1,
          ((F.cache x.2.2.1 x.2.2.2.1 F.base.rotator).plan n).gen E x.2.2.2.2))) ∧
      ∀ x, r = .ok x → x.2.1 ∈ Set.Icc F.base.source.Emin F.base.source.Emax ∧
        x.2.2.2.1.length = F.rx.length ∧ ∃ k, x.2.2.2.2 = after E k g := by
  have hsz : ((F.plan 0).gen silent ()).Sized F.base.values := by
    simp [Gen.Sized, Plan.gen, Family.plan, h.cached]
  obtain ⟨N, r, h1, h2⟩ := rejectionSample_ends (safety := 1.01) (ε := 1e-8) (by norm_num)
    (by norm_num) (family_plenty h)
    (fun n x y st st' hI e => maximize_keep (ePdf_cached _) n _ _ _ hI e) ho F.base.pdfMax hsz
  by_cases hne : F.rx = []
  · refine ⟨0, .error .marleyError, fun n _ => ?_, fun x hx => by cases hx⟩
    unfold Gen.sampleReaction
    rw [if_pos (by simp [Plan.gen, Family.plan, hne])]
    rfl
  have hemp : ∀ n, ¬ ((F.plan n).gen E g).reactions.isEmpty = true := fun n => by
    simpa [Plan.gen, Family.plan] using hne
  have hrej : ∀ n, N ≤ n → rejectionSample ((F.plan n).world E).arith ((F.plan n).world E).engine
      ((F.plan n).world E).fuel ((F.plan n).gen E g).ePdf ((F.plan n).gen E g).source.Emin
      ((F.plan n).gen E g).source.Emax ((F.plan n).gen E g).pdfMax 1.01 1e-8
      ((F.plan n).gen E g).eng ((F.plan n).gen E g).values = some r := by
    intro n hn
    rw [family_pdf, show ((F.plan n).world E).arith = exact from h.arith]
    exact h1 n hn
  cases r with
  | error e =>
    refine ⟨N, .error e, fun n hn => ?_, fun x hx => by cases hx⟩
    unfold Gen.sampleReaction
    rw [if_neg (hemp n), hrej n hn]
    rfl
  | ok q =>
    obtain ⟨c1, c2, k, c3⟩ := h2 q rfl
    have c2' : q.st.length = F.rx.length := by
      simpa [Gen.Sized, Plan.gen, Family.plan] using c2
    cases hp : pickFrom E q.st q.gen with
    | error e =>
      refine ⟨N, .error e, fun n hn => ?_, fun x hx => by cases hx⟩
      unfold Gen.sampleReaction
      rw [if_neg (hemp n), hrej n hn]
      dsimp only
      rw [show pickFrom ((F.plan n).world E).engine q.st q.gen = .error e from hp]
      rfl
    | ok v =>
      obtain ⟨i, g1⟩ := v
      obtain ⟨k', hk'⟩ := determined_after (pickFrom_determined q.st)
        (show some (pickFrom E q.st q.gen) = _ by rw [hp])
      by_cases hi : i < F.rx.length
      · refine ⟨N, .ok (i, q.x, some q.fmax, q.st, g1), fun n hn => ?_, fun x hx => ?_⟩
        · unfold Gen.sampleReaction
          rw [if_neg (hemp n), hrej n hn]
          dsimp only
          rw [show pickFrom ((F.plan n).world E).engine q.st q.gen = .ok (i, g1) from hp]
          dsimp only
          rw [if_pos (by simpa [Plan.gen, Family.plan] using hi)]
          rfl
        · cases hx
          exact ⟨c1, c2', k + k', by rw [after_add, ← c3]; exact hk'⟩
      · refine ⟨N, .error .outOfRange, fun n hn => ?_, fun x hx => by cases hx⟩
        unfold Gen.sampleReaction
        rw [if_neg (hemp n), hrej n hn]
        dsimp only
        rw [show pickFrom ((F.plan n).world E).engine q.st q.gen = .ok (i, g1) from hp]
        dsimp only
        rw [if_neg (by simpa [Plan.gen, Family.plan] using hi)]
        rfl

theorem Workable.cache (h : Workable F s) (m : Option ℝ) {vals : List ℝ} (r : Rotator)
    (hv : vals.length = F.rx.length) : Workable (F.cache m vals r) s :=
  ⟨h.arith, hv, ⟨h.sections.value, h.sections.nonneg, h.sections.measurable⟩, h.norm, h.bounded,
    h.somewhere⟩

theorem Parts.cache (h : Parts E F) (m : Option ℝ) (vals : List ℝ) (r : Rotator) :
    Parts E (F.cache m vals r) := ⟨h.finite, h.reactions, h.decays⟩

theorem createEvent_ends (h : Workable F s) (hp : Parts E F) {g : G} (ho : Often E g) :
    ∃ N, ∃ r : Res (Event ℝ × Option ℝ × List ℝ × Rotator × G),
      (∀ n, N ≤ n → ((F.plan n).gen E g).createEvent ((F.plan n).world E)
        = some (r.map fun x => (x.1,
          ((F.cache x.2.1 x.2.2.1 x.2.2.2.1).plan n).gen E x.2.2.2.2))) ∧
      ∀ x, r = .ok x → x.2.2.1.length = F.rx.length ∧ ∃ k, x.2.2.2.2 = after E k g := by
  obtain ⟨N, r, h1, h2⟩ := sampleReaction_ends (E := E) h ho
  unfold Gen.createEvent
  cases r with
  | error e =>
    refine ⟨N, .error e, fun n hn => ?_, fun x hx => by cases hx⟩
    rw [h1 n hn]; rfl
  | ok x =>
    obtain ⟨i, e, m, vals, g1⟩ := x
    obtain ⟨he, hv, k, hk⟩ := h2 _ rfl
    dsimp only at he hv hk
    have ho1 : Often E g1 := by rw [hk]; exact ho.after k
    cases hr : F.rx[i]? with
    | none =>
      refine ⟨N, .error .outOfRange, fun n hn => ?_, fun x hx => by cases hx⟩
      rw [h1 n hn]
      simp [Except.map, Plan.gen, Family.plan, Family.cache, hr]
    | some rx =>
      have hmem := List.mem_of_getElem? hr
      obtain ⟨N2, v, hN2⟩ := hp.reactions rx hmem e he g1 ho1
      dsimp only at hN2
      have hget : ∀ n, (((F.cache m vals F.base.rotator).plan n).gen E g1).reactions[i]?
          = some ((rx.at n).rx E) := fun n => by
        simp [Plan.gen, Family.plan, Family.cache, hr]
      cases v with
      | error er =>
        refine ⟨max N N2, .error er, fun n hn => ?_, fun x hx => by cases hx⟩
        rw [h1 n (le_of_max_le_left hn)]
        simp only [Except.map, hget]
        rw [show ((rx.at n).rx E).create (((F.cache m vals F.base.rotator).plan n).gen E g1).source.pid e
          (((F.cache m vals F.base.rotator).plan n).gen E g1).eng = some (.error er) from
          hN2 n (le_of_max_le_right hn)]
      | ok v =>
        obtain ⟨ev, g2⟩ := v
        have hcr := hN2 N2 le_rfl
        obtain ⟨k2, hk2⟩ := determined_after ((hp.finite N2).1 (rx.at N2)
          (List.mem_map_of_mem hmem) F.base.source.pid e) hcr
        have hdec : Ends fun n => (if F.base.deexcite then F.dec n ev G E g2 else some (.ok (ev, g2)) :
            Option (Res (Event ℝ × G))) := by
          cases hde : F.base.deexcite with
          | false => exact .of _
          | true => exact hp.decays hde rx hmem e he g1 ho1 N2 ev g2 hcr
        obtain ⟨N3, w, hN3⟩ := hdec
        dsimp only at hN3
        have hfin : ∀ n, N3 ≤ n → finish ((F.plan n).world E) F.base.deexcite F.base.rotator ev g2
            = some (match w with
              | .error e => .error e
              | .ok (ev, eng) =>
                match F.base.rotator.process ev (direction ((F.plan 0).world E) F.base.rotator ev eng).1
                    (direction ((F.plan 0).world E) F.base.rotator ev eng).2.1 with
                | .error e => .error e
                | .ok (r, ev1) => .ok (ev1, r, (direction ((F.plan 0).world E) F.base.rotator ev eng).2.2)) := by
          intro n hn
          unfold finish
          rw [show (if F.base.deexcite then ((F.plan n).world E).decay ev g2 else some (.ok (ev, g2)) :
            Option (Res (Event ℝ × G))) = some w from hN3 n hn]
          cases w with
          | error e => rfl
          | ok w =>
            obtain ⟨ev, eng⟩ := w
            have hdir : direction ((F.plan n).world E) F.base.rotator ev eng
                = direction ((F.plan 0).world E) F.base.rotator ev eng := rfl
            dsimp only
            rw [hdir]
            generalize Rotator.process _ _ _ _ = y
            cases y with
            | error e => rfl
            | ok y => obtain ⟨_, _⟩ := y; rfl
        have hgo : ∀ n, max N (max N2 N3) ≤ n → ∀ z : Res (Event ℝ × Rotator × G),
            finish ((F.plan n).world E) F.base.deexcite F.base.rotator ev g2 = some z →
            (match ((F.plan n).gen E g).sampleReaction ((F.plan n).world E) with
            | none => none
            | some (.error e) => some (.error e)
            | some (.ok (i, E', g)) =>
              match g.reactions[i]? with
              | none => some (.error .outOfRange)
              | some rx =>
                match rx.create g.source.pid E' g.eng with
                | none => none
                | some (.error e) => some (.error e)
                | some (.ok (ev, eng)) =>
                  match finish ((F.plan n).world E) g.deexcite g.rotator ev eng with
                  | none => none
                  | some (.error e) => some (.error e)
                  | some (.ok (ev, r, eng)) => some (.ok (ev, { g with eng := eng, rotator := r })) :
              Option (Res (Event ℝ × Gen G)))
            = some (z.map fun y => (y.1, ((F.cache m vals y.2.1).plan n).gen E y.2.2)) := by
          intro n hn z hz
          rw [h1 n (le_of_max_le_left hn)]
          simp only [Except.map, hget]
          rw [show ((rx.at n).rx E).create (((F.cache m vals F.base.rotator).plan n).gen E g1).source.pid e
            (((F.cache m vals F.base.rotator).plan n).gen E g1).eng = some (.ok (ev, g2)) from
            hN2 n (le_of_max_le_left (le_of_max_le_right hn))]
          dsimp only
          rw [show finish ((F.plan n).world E)
            (((F.cache m vals F.base.rotator).plan n).gen E g1).deexcite
            (((F.cache m vals F.base.rotator).plan n).gen E g1).rotator ev g2 = some z from hz]
          cases z with
          | error e => rfl
          | ok z => rfl
        have hfd := finish_determined (F.plan N3) (hp.finite N3).2 F.base.deexcite F.base.rotator ev
        have hf3 := hfin N3 le_rfl
        revert hf3 hfin
        generalize (match w with
              | .error e => .error e
              | .ok (ev, eng) =>
                match F.base.rotator.process ev (direction ((F.plan 0).world E) F.base.rotator ev eng).1
                    (direction ((F.plan 0).world E) F.base.rotator ev eng).2.1 with
                | .error e => .error e
                | .ok (r, ev1) => .ok (ev1, r, (direction ((F.plan 0).world E) F.base.rotator ev eng).2.2) :
              Res (Event ℝ × Rotator × G)) = z
        intro hfin hf3
        refine ⟨max N (max N2 N3), z.map fun y => (y.1, m, vals, y.2.1, y.2.2), fun n hn => ?_,
          fun x hx => ?_⟩
        · rw [show ∀ t : Res (Event ℝ × Rotator × G),
            ((t.map fun y => (y.1, m, vals, y.2.1, y.2.2)).map fun x => (x.1,
              ((F.cache x.2.1 x.2.2.1 x.2.2.2.1).plan n).gen E x.2.2.2.2))
            = t.map fun y => (y.1, ((F.cache m vals y.2.1).plan n).gen E y.2.2) from
            fun t => by cases t <;> rfl]
          exact hgo n hn z (hfin n (le_of_max_le_right (le_of_max_le_right hn)))
        · cases z with
          | error e => cases hx
          | ok z =>
            obtain ⟨ev', r', g3⟩ := z
            cases hx
            obtain ⟨k3, hk3⟩ := determined_after hfd (a := (ev', r')) (g' := g3) (E := E) (g := g2)
              (by rw [hf3]; rfl)
            refine ⟨hv, k + (k2 + k3), ?_⟩
            dsimp only
            rw [hk3, hk2, hk, after_add, after_add]

theorem createEvents_ends (h : Workable F s) (hp : Parts E F) (k : Nat) {g : G} (ho : Often E g) :
    Ends fun n => (((F.plan n).gen E g).createEvents ((F.plan n).world E) k).map
      (Except.map fun x => (x.1, x.2.eng)) := by
  induction k generalizing F g with
  | zero => exact ⟨0, .ok ([], g), fun _ _ => rfl⟩
  | succ k ih =>
    obtain ⟨N, r, h1, h2⟩ := createEvent_ends h hp ho
    cases r with
    | error e =>
      refine ⟨N, .error e, fun n hn => ?_⟩
      dsimp only
      rw [Gen.createEvents, h1 n hn]; rfl
    | ok x =>
      obtain ⟨ev, m, vals, rot, g1⟩ := x
      obtain ⟨hv, j, hj⟩ := h2 _ rfl
      dsimp only at hv hj
      obtain ⟨N', v, hN'⟩ := ih (h.cache m rot hv) (hp.cache m vals rot) (g := g1)
        (by rw [hj]; exact ho.after j)
      refine ⟨max N N', v.map fun x => (ev :: x.1, x.2), fun n hn => ?_⟩
      have h3 := hN' n (le_of_max_le_right hn)
      dsimp only at h3 ⊢
      rw [Gen.createEvents, h1 n (le_of_max_le_left hn)]
      simp only [Except.map]
      rw [show ((F.cache m vals rot).plan n).world E = (F.plan n).world E from rfl] at h3
      revert h3
      generalize Gen.createEvents ((F.plan n).world E) k
        (((F.cache m vals rot).plan n).gen E g1) = y
      intro h3
      match y, h3 with
      | some (.error e), h3 =>
        simp only [Option.map_some, Except.map, Option.some.injEq] at h3
        rw [← h3]; rfl
      | some (.ok y), h3 =>
        simp only [Option.map_some, Except.map, Option.some.injEq] at h3
        rw [← h3]; rfl

end

/-- **C134**.  With an ideal engine, runs of any length end with probability one: for almost every
state of the engine and every number of events there is a number of passes of the loops from which
on the outcome, the events and the state of the engine or an exception, is there and stays the
same. -/
theorem C134_ends_partial {Ω : Type} [MeasurableSpace Ω] {μ : Measure Ω} {E : Engine Ω} {F : Family}
    {s : Nat → ℝ → ℝ} (hI : Ideal E μ) (h : Workable F s) (hp : Parts E F) :
    ∀ᵐ ω ∂μ, ∀ k, Ends fun n => (((F.plan n).gen E ω).createEvents ((F.plan n).world E) k).map
      (Except.map fun x => (x.1, x.2.eng)) := by
  filter_upwards [often_ae hI] with ω ho k
  exact createEvents_ends h hp k ho

/-! ### De-excitation of nuclei that cannot break up -/

/-- A nucleus that can only emit gamma rays: there is a decay scheme, its gamma rays lead down, and
the excitation energy is not above the threshold for the emission of a fragment. -/
def BelowThreshold (D : Decay.Data) (pdg : Int) (Ex : ℝ) : Prop :=
  ∃ s t, D.scheme pdg = .ok (some s) ∧ (s.levels.map (·.1)).Nodup ∧ Downward s ∧
    Mass.unboundThresholdPid D.mass (D.frags.map (·.pid)) pdg = .ok t ∧ Ex ≤ t

theorem cascade_ends {G : Type} (A : Arith) (E : Engine G) (D : Decay.Data) {s : Scheme.Scheme ℝ}
    (ha : (s.levels.map (·.1)).Nodup) (hd : Downward s) (q : Int) (c : Nat) :
    ∀ (a : Nat) (l : Scheme.Level ℝ), (a, l) ∈ s.levels →
      s.levels.countP (fun m => decide (m.2.energy < l.energy)) ≤ c → ∀ (ev : Event ℝ) (g : G),
      ∃ r, ∀ n, c + 1 ≤ n → Decay.cascade A E D s q n a ev g = some r := by
  induction c with
  | zero =>
    intro a l hl hc ev g
    have hg : l.gammas = [] := by
      rcases hgs : l.gammas with _ | ⟨x, t⟩
      · rfl
      · obtain ⟨m, hm, -, hlt⟩ := hd (a, l) hl x (by simp [hgs])
        have : 0 < s.levels.countP (fun m => decide (m.2.energy < l.energy)) :=
          List.countP_pos_iff.2 ⟨m, hm, by simpa using hlt⟩
        omega
    refine ⟨(ev, .ok g), fun n hn => ?_⟩
    obtain ⟨n, rfl⟩ : ∃ k, n = k + 1 := ⟨n - 1, by omega⟩
    simp only [Decay.cascade, levelAt_listed ha hl, hg, if_true]
  | succ c ih =>
    intro a l hl hc ev g
    suffices h : ∃ r, ∀ n, c + 1 ≤ n → Decay.cascade A E D s q (n + 1) a ev g = some r by
      obtain ⟨r, hr⟩ := h
      refine ⟨r, fun n hn => ?_⟩
      obtain ⟨n, rfl⟩ : ∃ k, n = k + 1 := ⟨n - 1, by omega⟩
      exact hr n (by omega)
    simp only [Decay.cascade, levelAt_listed ha hl]
    by_cases hg : l.gammas = []
    · simp only [hg, if_true]; exact ⟨_, fun _ _ => rfl⟩
    simp only [if_neg hg]
    cases Sampling.pickFrom E (l.gammas.map (·.ri)) g with
    | error e => exact ⟨_, fun _ _ => rfl⟩
    | ok v =>
      obtain ⟨i, g1⟩ := v
      dsimp only
      cases hgi : l.gammas[i]? with
      | none => exact ⟨_, fun _ _ => rfl⟩
      | some x =>
        obtain ⟨⟨b, lf⟩, hb, hdest, hlow⟩ := hd (a, l) hl x (List.mem_of_getElem? hgi)
        dsimp only at hdest hlow ⊢
        rw [hdest]
        dsimp only
        rw [levelAt_listed ha hb]
        dsimp only
        have hcount := countP_lt_of_lt (ls := s.levels) hlow ⟨(b, lf), hb, rfl⟩
        cases Mass.atomicMassPid D.mass (Pdg.nucleusPid s.Z s.A) true with
        | error e => exact ⟨_, fun _ _ => rfl⟩
        | ok mAtom =>
          cases mAtom with
          | none => exact ⟨_, fun _ _ => rfl⟩
          | some mAtom =>
            dsimp only
            cases Mass.particleMass D.mass Mass.ELECTRON with
            | error e => exact ⟨_, fun _ _ => rfl⟩
            | ok me =>
              dsimp only
              cases ev.final[1]? with
              | none => exact ⟨_, fun _ _ => rfl⟩
              | some residue =>
                dsimp only
                generalize Kin.twoBodyDecay _ _ _ _ _ = y
                cases y with
                | error e => exact ⟨_, fun _ _ => rfl⟩
                | ok y => exact ih b lf hb (by omega) _ _

/-- **C134**, de-excitation below the threshold: it ends, whatever the numbers are. -/
theorem C134_gammas {G : Type} (A : Arith) (E : Engine G) {D : Decay.Data} {ev : Event ℝ} (g : G)
    {residue : Particle ℝ} (hres : ev.final[1]? = some residue)
    (hb : BelowThreshold D residue.pdg ev.Ex) : Ends fun n => Decay.decayer A E n D ev g := by
  suffices h : ∃ N r, ∀ n, N ≤ n → Decay.process A E n D ev g = some r by
    obtain ⟨N, r, hr⟩ := h
    exact ⟨N, r.2.map (r.1, ·), fun n hn => by simp only [Decay.decayer, hr n hn, Option.map_some]⟩
  obtain ⟨s, t, hs, ha, hd, ht, hle⟩ := hb
  have hdx : ∃ N r, ∀ n, N ≤ n → Decay.deexcite A E n D residue.pdg ev g = some r := by
    have hst : (decide (ev.Ex > t) || (some s).isNone) = false := by simpa using hle
    have key : ∀ n, 1 ≤ n → Decay.deexcite A E n D residue.pdg ev g
        = Decay.finishGammas A E n D false ev.Ex ev g := by
      intro n hn
      obtain ⟨n, rfl⟩ : ∃ k, n = k + 1 := ⟨n - 1, by omega⟩
      simp only [Decay.deexcite, hs, ht, hst, Decay.hfLoop, Bool.false_eq_true, false_and, if_false,
        if_true]
    have hfin : ∃ N r, ∀ n, N ≤ n → Decay.finishGammas A E n D false ev.Ex ev g = some r := by
      unfold Decay.finishGammas
      simp only [hres, hs]
      cases Scheme.closestLevel s ev.Ex with
      | error e => exact ⟨0, _, fun _ _ => rfl⟩
      | ok v =>
        cases v with
        | none => exact ⟨0, _, fun _ _ => rfl⟩
        | some a =>
          dsimp only
          cases hl : Scheme.levelAt s a with
          | none => exact ⟨0, _, fun _ _ => rfl⟩
          | some lev =>
            dsimp only
            split_ifs
            · exact ⟨0, _, fun _ _ => rfl⟩
            · have hmem : (a, lev) ∈ s.levels := by
                simp only [Scheme.levelAt, Option.map_eq_some_iff] at hl
                obtain ⟨x, h1, h2⟩ := hl
                have h3 := List.find?_some h1
                have h4 := List.mem_of_find?_eq_some h1
                simp only [decide_eq_true_eq] at h3
                rw [← h3, ← h2]
                exact h4
              obtain ⟨r, hr⟩ := cascade_ends A E D ha hd residue.charge _ a lev hmem le_rfl ev g
              exact ⟨_, r, hr⟩
    obtain ⟨N, r, hr⟩ := hfin
    exact ⟨max 1 N, r, fun n hn => by
      rw [key n (le_of_max_le_left hn)]; exact hr n (le_of_max_le_right hn)⟩
  unfold Decay.process
  split_ifs
  · exact ⟨0, _, fun _ _ => rfl⟩
  · exact ⟨0, _, fun _ _ => rfl⟩
  simp only [hres]
  split_ifs
  · exact ⟨0, _, fun _ _ => rfl⟩
  cases Mass.atomicMassPid D.mass residue.pdg true with
  | error e => exact ⟨0, _, fun _ _ => rfl⟩
  | ok mAtom =>
    cases mAtom with
    | none => exact ⟨0, _, fun _ _ => rfl⟩
    | some mAtom =>
      dsimp only
      cases Mass.particleMass D.mass Mass.ELECTRON with
      | error e => exact ⟨0, _, fun _ _ => rfl⟩
      | ok me =>
        dsimp only
        split_ifs
        · exact ⟨0, _, fun _ _ => rfl⟩
        · exact ⟨0, _, fun _ _ => rfl⟩
        · exact hdx

/-! ### The reactions and the decayer of MARLEY -/

/-- A nuclear reaction whose loops may be passed any number of times. -/
noncomputable def nuclearLoops (B : Env Unit) (r : Nuc) : Loops :=
  ⟨r.pdgA, r.pdgB, r.totalXs B.fermi, fun n pdg e _ E g => r.createEvent ((fueled B n).on E) pdg e g⟩

/-- The same for scattering on electrons. -/
noncomputable def electronLoops (B : Env Unit) (r : Reaction.Electron) : Loops :=
  ⟨r.pdgA, r.atom, fun pdg e => .ok (elTotal r pdg e),
    fun n pdg e _ E g => elCreate ((fueled B n).on E) r pdg e g⟩

/-- They are the reactions of C133 with so many passes. -/
example (B : Env Unit) (n : Nat) (r : Nuc) (x : Reaction.Electron) :
    (nuclearLoops B r).at n = nuclearPlan (fueled B n) r ∧
    (electronLoops B x).at n = electronPlan (fueled B n) x := ⟨rfl, rfl⟩

theorem boost_pdg {a b c : ℝ} {p p' : Particle ℝ} (h : Kin.lorentzBoost a b c p = .ok p') :
    p'.pdg = p.pdg := by
  unfold Kin.lorentzBoost at h
  split at h
  · cases h
  · split_ifs at h
    · cases h; rfl
    · cases h; rfl

theorem makeEvent_residue {r : Kin.Masses} {KEa c phi Elevel : ℝ} {sc : Kin.Scatter} {twoJ : Int}
    {P : Parity} {ev : Event ℝ} (e : makeEvent r KEa sc c phi Elevel twoJ P = .ok ev) :
    ∃ ej re, ev.final = [ej, re] ∧ re.pdg = r.pdgD := by
  have key : ∀ {pdg : Int} {a b c d m : ℝ} {p : Particle ℝ}, Particle.mk6 pdg a b c d m = .ok p →
      p.pdg = pdg := by
    intro pdg a b c d m p h
    unfold Particle.mk6 at h
    split at h
    · cases h; rfl
    · cases h
  unfold makeEvent at e
  simp only at e
  split at e
  · rename_i h1 h2 h3 h4
    split at e
    · rename_i k1 k2
      cases e
      exact ⟨_, _, rfl, by rw [boost_pdg k2, key h4]⟩
    · cases e
    · cases e
  all_goals cases e

theorem nuclear_residue {G : Type} {E : Env G} {r : Nuc} {pdg : Int} {KEa : ℝ} {g g' : G} {ev : Event ℝ}
    (e : r.createEvent E pdg KEa g = some (.ok (ev, g'))) :
    ∃ m ∈ r.elements, ev.Ex = m.levelEnergy ∧
      ∃ re, ev.final[1]? = some re ∧ re.pdg = r.pdgD := by
  obtain ⟨m, g1, beta, c, g2, J, P, J', P', ev', h1, -, -, -, -, h6, h7⟩ := createEvent_parts e
  refine ⟨m, ?_, by rw [(setCharges_labels h7).1, (makeEvent_labels h6).1], ?_⟩
  · unfold Nuc.choose at h1
    repeat' split at h1
    all_goals first
      | cases h1
        done
      | (rename_i hm; cases h1; exact List.mem_of_getElem? hm)
  · obtain ⟨ej, re, hf, hp⟩ := makeEvent_residue h6
    unfold setCharges at h7
    cases hi : Event.setChargeAt ev'.initial 1 0 with
    | error _ => rw [hi] at h7; cases h7
    | ok ini =>
      rw [hi, hf] at h7
      simp only [Event.setChargeAt, List.getElem?_cons_succ, List.getElem?_cons_zero] at h7
      cases h7
      exact ⟨_, rfl, hp⟩

theorem electron_still {G : Type} {E : Env G} {r : Reaction.Electron} {pdg : Int} {KEa : ℝ} {g g' : G}
    {ev : Event ℝ} (e : elCreate E r pdg KEa g = some (.ok (ev, g'))) : ev.Ex = 0 := by
  unfold elCreate at e
  split_ifs at e
  · cases e
  · cases e
  · dsimp only at e
    split at e
    · cases e
    · cases e
    · split at e
      · cases e
      · rename_i h
        cases e
        exact (makeEvent_labels h).1

/-- **C134**, the reactions and the decayer of MARLEY: with an ideal engine, runs end with
probability one if the nuclear reactions lead to levels below the threshold for the emission of
fragments, or if nothing is de-excited.  Missing: rounding, and nuclei that
break up (see `C134_compound_partial`). -/
theorem C134_marley_partial {Ω : Type} [MeasurableSpace Ω] {μ : Measure Ω} {E : Engine Ω} {F : Family}
    {s : Nat → ℝ → ℝ} (hI : Ideal E μ) (h : Workable F s) {B : Env Unit} (hB : B.arith = exact)
    {A : Arith} {D : Decay.Data} (h0 : 0 ≤ F.base.source.Emin)
    (hr : ∀ r ∈ F.rx, (∃ n, r = nuclearLoops B n ∧ (F.base.deexcite = true →
        ∀ m ∈ n.elements, BelowThreshold D n.pdgD m.levelEnergy)) ∨
      ∃ x, r = electronLoops B x ∧ ElectronGood x)
    (hd : F.dec = fun n ev _ E g => Decay.decayer A E n D ev g) :
    ∀ᵐ ω ∂μ, ∀ k, Ends fun n => (((F.plan n).gen E ω).createEvents ((F.plan n).world E) k).map
      (Except.map fun x => (x.1, x.2.eng)) := by
  refine C134_ends_partial hI h ⟨fun n => ⟨fun r hr' pdg e => ?_, fun ev => ?_⟩,
    fun r hr' e he g ho => ?_, fun hde r hr' e he g ho n ev g' hcr => ?_⟩
  · obtain ⟨r, hm, rfl⟩ := List.mem_map.1 hr'
    rcases hr r hm with ⟨x, rfl, -⟩ | ⟨x, rfl, -⟩
    · exact C133_nuclear (fueled B n) x pdg e
    · exact C133_electron (fueled B n) x pdg e
  · rw [show (F.plan n).decay = F.dec n from rfl, hd]
    exact C133_decays A n D ev
  · rcases hr r hr' with ⟨x, rfl, -⟩ | ⟨x, rfl, hx⟩
    · exact C134_nuclear hB x _ e ho
    · exact C134_electron hB hx _ (h0.trans he.1) ho
  · rw [hd]
    rcases hr r hr' with ⟨x, rfl, hb⟩ | ⟨x, rfl, -⟩
    · obtain ⟨m, hm, hex, re, hre, hp⟩ := nuclear_residue hcr
      exact C134_gammas A E g' hre (by rw [hp, hex]; exact hb hde m hm)
    · refine ⟨0, .ok (ev, g'), fun n _ => ?_⟩
      simp only [Decay.decayer, Decay.process, electron_still hcr, if_true]
      rfl

/-! ### Examples -/

/-- Almost every sequence of independent and uniform numbers will do. -/
example : ∃ x : ℕ → ℝ, Often reader x := by
  have := reader_ideal.prob
  exact (often_ae reader_ideal).exists

/-- Numbers that are 0 and 9/10 in turns. -/
noncomputable def turns : Engine Bool := ⟨fun b => (if b then 0 else 9 / 10, !b)⟩

/-- Not every sequence of numbers in [0, 1) will do: with `turns` the sampling of the scattering
angle for a Fermi transition at the speed of light goes on for ever.  So C134 cannot be had surely. -/
theorem C134_not_surely {B : Env Unit} (hB : B.arith = exact) {m : MatEl} (hm : m.type = 0) :
    (∀ k, number turns k true ∈ Set.Ico (0 : ℝ) 1) ∧
    ∀ n, sampleCos ((fueled B n).on turns) m 1 true = none := by
  have hd : ∀ c : ℝ, cosDensity m c 1 = .ok ((1 + 1 * c) * 0.5) := by
    intro c
    unfold cosDensity cosPdf
    rw [if_pos hm]
    rfl
  refine ⟨fun k => ?_, fun n => ?_⟩
  · unfold number
    generalize after turns k true = b
    cases b <;> norm_num [turns]
  · have hmax : cosMax m 1 = .ok 1 := by
      unfold cosMax
      rw [if_pos hm, hd]
      norm_num
    have hloop : ∀ n, rejectLoop exact turns (fun c (_ : Unit) => (cosDensity m c 1).map (·, ()))
        (-1) 1 1.01 n 1 true () = none := by
      intro n
      induction n with
      | zero => rfl
      | succ n ih =>
        have hf : ∀ c : ℝ, (fun c (_ : Unit) => (cosDensity m c 1).map (·, ())) c ()
            = .ok ((1 + 1 * c) * 0.5, ()) := fun c => by simp only [hd, Except.map]
        generalize (fun c (_ : Unit) => (cosDensity m c 1).map (·, ())) = f at hf ih ⊢
        have e1 : turns.draw true = (0, false) := rfl
        have e2 : turns.draw false = (9 / 10, true) := rfl
        simp only [rejectLoop, uniform_exact, e1, e2, hf]
        rw [if_pos (by norm_num), if_neg (by norm_num)]
        exact ih
    unfold sampleCos
    rw [hmax]
    simp only [fueled, Env.on, hB, rejectionSample, hloop]

/-- Data for a nucleus with the levels of `exLadder` and no fragments. -/
noncomputable def ladderFull : Decay.Data := { ladderData with scheme := fun _ => .ok (some exLadder) }

/-- All levels of it are below the threshold. -/
theorem ladder_below {Ex : ℝ} (h : Ex ≤ 3) : BelowThreshold ladderFull 1000190400 Ex := by
  refine ⟨exLadder, Mass.dblMax, rfl, ladder_nodup, ladder_down, rfl, h.trans ?_⟩
  have h2 : (2 : ℝ) ^ 2 ≤ 2 ^ 1023 := pow_le_pow_right₀ (by norm_num) (by norm_num)
  have h3 : (2 : ℝ) ^ (-52 : ℤ) ≤ 1 := by norm_num
  unfold Mass.dblMax
  generalize (2 : ℝ) ^ 1023 = y at h2
  generalize (2 : ℝ) ^ (-52 : ℤ) = x at h3
  nlinarith

/-- Neutrinos on electrons of mass one. -/
noncomputable def unitElectron : Reaction.Electron := ⟨12, 12, 1000180400, 1, 0, 0, 1, 0, 1⟩

theorem unit_good : ElectronGood unitElectron := ⟨le_rfl, one_pos, le_rfl, rfl⟩

theorem unit_total {e : ℝ} (h : 0 ≤ e) :
    elTotal unitElectron 12 e = 4 / Real.pi * GF ^ 2 * 18 * (e ^ 2 / (1 + 2 * e)) := by
  have h1 : ¬ e < threshold (elMasses unitElectron) := by
    simpa [threshold, elMasses, unitElectron] using h
  have h2 : Pdg.getZ 1000180400 = 18 := by decide
  have hs : elS unitElectron e = 1 + 2 * e := by simp [elS, unitElectron]
  have hp : 0 < 1 + 2 * e := by linarith
  have hE : elEc unitElectron e ^ 2 = e ^ 2 / (1 + 2 * e) := by
    unfold elEc
    rw [hs, div_pow, mul_pow, Real.sq_sqrt hp.le]
    simp only [unitElectron]
    field_simp
    ring
  unfold elTotal
  rw [if_neg (by simp [unitElectron]), if_neg h1]
  rw [mul_pow, hE]
  simp only [unitElectron, h2]
  push_cast
  ring

/-- A generator with this reaction, and with a nuclear reaction of other projectiles. -/
noncomputable def endsFamily (B : Env Unit) (r : Nuc) : Family where
  base := { demoPlan 2 [0, 0] with pdfMax := none }
  rx := [electronLoops B unitElectron, nuclearLoops B r]
  dec := fun n ev _ E g => Decay.decayer exact E n ladderFull ev g

/-- Its cross sections. -/
noncomputable def endsXs (j : Nat) (e : ℝ) : ℝ :=
  if j = 0 ∧ 0 ≤ e then 4 / Real.pi * GF ^ 2 * 18 * (e ^ 2 / (1 + 2 * e)) else 0

theorem ends_rates (B : Env Unit) (r : Nuc) {e : ℝ} (h : 0 ≤ e) :
    rates (((endsFamily B r).plan 0).gen silent ()) endsXs e
      = 4 / Real.pi * GF ^ 2 * 18 * (e ^ 2 / (1 + 2 * e)) := by
  simp [rates, rate, endsFamily, Family.plan, Plan.gen, demoPlan, demoSource, endsXs, h]

theorem ends_workable (B : Env Unit) {r : Nuc} (hr : r.pdgA ≠ 12) : Workable (endsFamily B r) endsXs where
  arith := rfl
  cached := rfl
  sections :=
    { value := fun e he j x hx => by
        have h0 : (0 : ℝ) ≤ e := he.1
        match j, hx with
        | 0, hx =>
          cases hx
          refine ⟨_, rfl, ?_⟩
          show endsXs 0 e = elTotal unitElectron 12 e * 1
          rw [unit_total h0, endsXs, if_pos ⟨rfl, h0⟩, mul_one]
        | 1, hx =>
          cases hx
          refine ⟨0, ?_, by simp [endsXs]⟩
          show r.totalXs B.fermi 12 e = .ok 0
          unfold Nuc.totalXs summed
          rw [if_pos (Ne.symm hr)]
          rfl
        | j + 2, hx => cases hx
      nonneg := fun j e => by
        unfold endsXs
        have := Real.pi_pos
        split_ifs with h
        · obtain ⟨-, h⟩ := h
          positivity
        · exact le_rfl
      measurable := fun j => by
        unfold endsXs
        refine Measurable.ite ?_ (by fun_prop) measurable_const
        by_cases h : j = 0
        · simp only [h, true_and]; exact measurableSet_Ici
        · simp [h] }
  norm := one_pos
  bounded := by
    refine ⟨4 / Real.pi * GF ^ 2 * 18, fun e he => ?_⟩
    have h0 : (0 : ℝ) ≤ e := he.1
    have h1 : e ≤ 1 := he.2
    rw [ends_rates B r h0]
    have := Real.pi_pos
    refine mul_le_of_le_one_right (by positivity) ?_
    rw [div_le_one (by linarith)]
    nlinarith
  somewhere := by
    have hpi := Real.pi_pos
    have hG : 0 < GF := by unfold GF; norm_num
    refine Or.inl ⟨1 / 2, 1, 4 / Real.pi * GF ^ 2 * 18 * (1 / 12), ?_, by norm_num, ?_, by positivity,
      fun e he => ?_⟩
    · norm_num [endsFamily, demoPlan, demoSource]
    · norm_num [endsFamily, demoPlan, demoSource]
    · have h0 : (1 / 2 : ℝ) < e := he.1
      have h1 : e < 1 := he.2
      rw [ends_rates B r (by linarith)]
      refine mul_le_mul_of_nonneg_left ?_ (by positivity)
      rw [div_le_div_iff₀ (by norm_num) (by linarith)]
      nlinarith

/-- The same with a source of a single energy. -/
noncomputable def singleFamily (B : Env Unit) (r : Nuc) : Family :=
  { endsFamily B r with
    base := { (endsFamily B r).base with source := { (endsFamily B r).base.source with Emin := 1 } } }

theorem single_workable (B : Env Unit) {r : Nuc} (hr : r.pdgA ≠ 12) : Workable (singleFamily B r) endsXs := by
  have h := ends_workable B hr
  have hin : ∀ {e : ℝ}, e ∈ Set.Icc (1 : ℝ) 1 → e ∈ Set.Icc (0 : ℝ) 1 := fun he => ⟨by linarith [he.1], he.2⟩
  have hr : ∀ e, rates (((singleFamily B r).plan 0).gen silent ()) endsXs e
      = rates (((endsFamily B r).plan 0).gen silent ()) endsXs e := fun _ => rfl
  refine ⟨rfl, rfl, ⟨fun e he => h.sections.value e (hin he), h.sections.nonneg, h.sections.measurable⟩, one_pos,
    ?_, Or.inr ⟨rfl, ?_⟩⟩
  · obtain ⟨M, hM⟩ := h.bounded
    exact ⟨M, fun e he => by rw [hr]; exact hM e (hin he)⟩
  · have hpi := Real.pi_pos
    have hG : 0 < GF := by unfold GF; norm_num
    rw [hr]
    show 0 < rates (((endsFamily B r).plan 0).gen silent ()) endsXs 1
    rw [ends_rates B r zero_le_one]
    positivity

/-- They meet the hypotheses of `C134_marley_partial`, and with it their events end. -/
example {B : Env Unit} (hB : B.arith = exact) {r : Nuc} (hr : r.pdgA ≠ 12) (hD : r.pdgD = 1000190400)
    (hm : ∀ m ∈ r.elements, m.levelEnergy ≤ 3) :
    ∀ᵐ ω ∂coins, ∀ k, Ends fun n => ((((endsFamily B r).plan n).gen reader ω).createEvents
      (((endsFamily B r).plan n).world reader) k).map (Except.map fun x => (x.1, x.2.eng)) := by
  refine C134_marley_partial coin_ideal (ends_workable B hr) hB (A := exact) (D := ladderFull) le_rfl
    (fun x hx => ?_) rfl
  simp only [endsFamily, List.mem_cons, List.not_mem_nil, or_false] at hx
  rcases hx with rfl | rfl
  · exact Or.inr ⟨_, rfl, unit_good⟩
  · exact Or.inl ⟨r, rfl, fun _ m h => by rw [hD]; exact ladder_below (hm m h)⟩

example {B : Env Unit} (hB : B.arith = exact) {r : Nuc} (hr : r.pdgA ≠ 12) (hD : r.pdgD = 1000190400)
    (hm : ∀ m ∈ r.elements, m.levelEnergy ≤ 3) :
    ∀ᵐ ω ∂coins, ∀ k, Ends fun n => ((((singleFamily B r).plan n).gen reader ω).createEvents
      (((singleFamily B r).plan n).world reader) k).map (Except.map fun x => (x.1, x.2.eng)) := by
  refine C134_marley_partial coin_ideal (single_workable B hr) hB (A := exact) (D := ladderFull) zero_le_one
    (fun x hx => ?_) rfl
  simp only [singleFamily, endsFamily, List.mem_cons, List.not_mem_nil, or_false] at hx
  rcases hx with rfl | rfl
  · exact Or.inr ⟨_, rfl, unit_good⟩
  · exact Or.inl ⟨r, rfl, fun _ m h => by rw [hD]; exact ladder_below (hm m h)⟩

end Marley.Props
