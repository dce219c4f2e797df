import Verif.Lemmas.Stages
import Verif.Props.HauserFeshbach

/-!
# C135: stages of an event depend on each other only through their results

The random numbers that are left after a stage of an event, say a reaction or a decay, are as good as those
of another engine that has not been used.  So a chain of decays is a Markov chain: what follows a
decay depends on the decay only through the nucleus that it leaves.
-/

set_option autoImplicit false

namespace Marley.Props
open Marley Marley.Sampling Marley.Decay Marley.Kin MeasureTheory

/-! ### Specification -/

/-- A chain of decays (at most `n`) from the given state ends with an event and a final state (whether
in the continuum, and the excitation energy) in `T`. -/
def Course {G : Type} (A : Arith) (E : Engine G) (fuel : Nat) (D : Data) (n : Nat) (continuum : Bool)
    (Ex : ℝ) (twoJ : Int) (P : Parity) (ev : Event ℝ) (T : Set (Event ℝ × Bool × ℝ)) (g : G) : Prop :=
  ∃ x g', hfLoop A E fuel D n continuum Ex twoJ P ev g = some (x.1, .ok (x.2, g')) ∧ x ∈ T

/-- The chain goes on from what a decay has left of the nucleus of the event `ev`. -/
def Onwards {G : Type} (A : Arith) (E : Engine G) (fuel : Nat) (D : Data) (n : Nat) (ev : Event ℝ)
    (T : Set (Event ℝ × Bool × ℝ)) (q : Product × Bool) (g : G) : Prop :=
  Course A E fuel D n q.2 q.1.Ex q.1.twoJ q.1.P (Scheme.emit ev q.1.nucleus q.1.emitted) T g

/-- The probability of what comes next, `R`, after the outcome of a first stage; zero if this came to no
end or to an exception. -/
noncomputable def chance {Ω α : Type} [MeasurableSpace Ω] (μ : Measure Ω) (R : α → Ω → Prop) :
    Option (Res (α × Ω)) → ENNReal
  | some (.ok (a, _)) => μ {ω | R a ω}
  | _ => 0

/-! ### Theorems -/

section
variable {Ω : Type} [MeasurableSpace Ω] {μ : Measure Ω} {E : Engine Ω}

/-- **C135**, two stages: if the first is determined by finitely many numbers (C133), the second, `R`, goes with
what the first leaves of an ideal engine as it would go with another ideal engine, and
depends on the first only through its result. -/
theorem C135_stages (hI : Ideal E μ) {α : Type} {f : Sampler α} (hf : Determined f)
    {R : α → Ω → Prop}
    (hm : ∀ n, MeasurableSet {x : (Fin n → ℝ) × Ω | Settles f {a | R a x.2} n x.1}) :
    μ {ω | ∃ a ω', f Ω E ω = some (.ok (a, ω')) ∧ R a ω'}
      = (μ.prod μ) {p | ∃ a ω', f Ω E p.1 = some (.ok (a, ω')) ∧ R a p.2} :=
  stages hI hf hm

/-- **C135**, the same as a mean: the probability of a course of both stages is the mean over the results of
the first stage of the probability of the second stage, given this result. -/
theorem C135_mean (hI : Ideal E μ) {α : Type} {f : Sampler α} (hf : Determined f)
    {R : α → Ω → Prop}
    (hm : ∀ n, MeasurableSet {x : (Fin n → ℝ) × Ω | Settles f {a | R a x.2} n x.1}) :
    μ {ω | ∃ a ω', f Ω E ω = some (.ok (a, ω')) ∧ R a ω'}
      = ∫⁻ ω, chance μ R (f Ω E ω) ∂μ := by
  have := hI.prob
  rw [stages hI hf hm, Measure.prod_apply (stages_measurable hI hf hm)]
  refine lintegral_congr fun ω => ?_
  simp only [Set.preimage_ofPred_eq]
  cases f Ω E ω with
  | none => simp [chance]
  | some v =>
    cases v with
    | error e => simp [chance]
    | ok v =>
      obtain ⟨a, ω'⟩ := v
      simp [chance]

/-- **C135**, chains of decays: the probability that the chain from a nucleus in the continuum
takes a certain course is the probability that, if the first decay is made with one engine and
what follows with another, the chain from what the first decay leaves takes this course. -/
theorem C135_chain (hI : Ideal E μ) {A : Arith} {fuel : Nat} {D : Data} {n : Nat} {Ex : ℝ}
    (hE : cutoff < Ex) {twoJ : Int} {P : Parity} {ev : Event ℝ} {re : Particle ℝ}
    (hre : ev.final[1]? = some re) {T : Set (Event ℝ × Bool × ℝ)}
    (hm : ∀ k, MeasurableSet {x : (Fin k → ℝ) × Ω |
      Settles (fun _ E g => hfDecay A E fuel D re Ex twoJ P g)
        {q | Onwards A E fuel D n ev T q x.2} k x.1}) :
    μ {ω | Course A E fuel D (n + 1) true Ex twoJ P ev T ω}
      = (μ.prod μ) {p | ∃ q ω', hfDecay A E fuel D re Ex twoJ P p.1 = some (.ok (q, ω')) ∧
          Onwards A E fuel D n ev T q p.2} := by
  rw [← stages (f := fun _ E g => hfDecay A E fuel D re Ex twoJ P g) hI
    (hfDecay_determined A fuel D re Ex twoJ P) hm]
  congr 1
  ext ω
  simp only [Set.mem_ofPred_eq, Course, Onwards]
  rw [hfLoop, if_pos ⟨rfl, hE⟩, hre]
  dsimp only
  cases hfDecay A E fuel D re Ex twoJ P ω with
  | none => simp
  | some v =>
    cases v with
    | error e => simp
    | ok v =>
      obtain ⟨⟨q, c⟩, ω'⟩ := v
      simp

/-- **C135**, events: the probability that a reaction makes, at a given energy, an event that is in `T`
after de-excitation and rotation, is the probability of the same if the reaction
takes its numbers from one engine, and de-excitation and rotation from another. -/
theorem C135_event (hI : Ideal E μ) {P : Gen.Plan} {r : Gen.RxPlan} {e : ℝ}
    (hr : Determined (r.create P.source.pid e)) {T : Set (Event ℝ)}
    (hm : ∀ k, MeasurableSet {x : (Fin k → ℝ) × Ω | Settles (r.create P.source.pid e)
      {ev | ∃ y, Gen.finish (P.world E) P.deexcite P.rotator ev x.2 = some (.ok y) ∧ y.1 ∈ T} k x.1}) :
    μ {ω | ∃ ev ω', outcome P r e Ω E ω = some (.ok (ev, ω')) ∧ ev ∈ T}
      = (μ.prod μ) {p | ∃ ev ω', r.create P.source.pid e Ω E p.1 = some (.ok (ev, ω')) ∧
          ∃ y, Gen.finish (P.world E) P.deexcite P.rotator ev p.2 = some (.ok y) ∧ y.1 ∈ T} := by
  refine Eq.trans ?_ (stages (R := fun ev ω => ∃ y,
    Gen.finish (P.world E) P.deexcite P.rotator ev ω = some (.ok y) ∧ y.1 ∈ T) hI hr hm)
  congr 1
  ext ω
  simp only [Set.mem_ofPred_eq, outcome, follow, Gen.Plan.gen, Gen.RxPlan.rx]
  cases r.create P.source.pid e Ω E ω with
  | none => simp
  | some v =>
    cases v with
    | error e => simp [Except.map]
    | ok v =>
      obtain ⟨ev, ω'⟩ := v
      cases hfin : Gen.finish (P.world E) P.deexcite P.rotator ev ω' with
      | none => simp_all
      | some v =>
        cases v with
        | error e => simp_all [Except.map]
        | ok v =>
          obtain ⟨x, rot, ω''⟩ := v
          simp_all [Except.map]

end

/-! ### Examples -/

/-- The numbers with which the reaction of `coinPlan` makes something in `T`. -/
theorem coin_settles {T : Set (Event ℝ)} {n : Nat} (pdg : Int) (e : ℝ) (v : Fin n → ℝ) :
    Settles (coinPlan.create pdg e) T n v ↔ ∃ h : n = 1, demoEvent (v ⟨0, by omega⟩) ∈ T := by
  match n, v with
  | 0, v => simp [Settles, coinPlan, replay]
  | 1, v => simp [Settles, coinPlan, replay, List.ofFn_succ]
  | n + 2, v => simp [Settles, coinPlan, replay, List.ofFn_succ]

/-- The hypotheses of the theorems on stages and events hold for the reaction of `coinPlan`, and for a
second stage that compares its number with that of the first. -/
example : Sampling.Ideal reader (Measure.infinitePi fun _ : ℕ => unit) ∧ Determined (coinPlan.create 12 1) ∧
    (∀ n, MeasurableSet {x : (Fin n → ℝ) × (ℕ → ℝ) | Settles (coinPlan.create 12 1)
      {ev | ∃ u, ev = demoEvent u ∧ u < (reader.draw x.2).1} n x.1}) := by
  refine ⟨reader_ideal, Determined.then .draw (fun u => .ok (demoEvent u)) fun G E g => rfl,
    fun n => ?_⟩
  simp only [coin_settles]
  by_cases h : n = 1
  · subst h
    have : {x : (Fin 1 → ℝ) × (ℕ → ℝ) | ∃ _ : 1 = 1, demoEvent (x.1 ⟨0, by omega⟩) ∈
        {ev | ∃ u, ev = demoEvent u ∧ u < (reader.draw x.2).1}} = {x | x.1 0 < x.2 0} := by
      ext x
      simp [demoEvent, demoProjectile, reader]
    rw [this]
    exact measurableSet_lt ((measurable_pi_apply 0).comp measurable_fst)
      ((measurable_pi_apply 0).comp measurable_snd)
  · have : {x : (Fin n → ℝ) × (ℕ → ℝ) | ∃ h : n = 1, demoEvent (x.1 ⟨0, by omega⟩) ∈
        {ev | ∃ u, ev = demoEvent u ∧ u < (reader.draw x.2).1}} = ∅ := by
      ext x
      simp [h]
    rw [this]
    exact MeasurableSet.empty

/-- Potassium-40 that can only emit gamma rays. -/
noncomputable def gammaOnly : Data :=
  { pairData 1 with
    frags := []
    mass := ⟨fun id => if id = 22 ∨ id = 11 then some 0 else none, fun pid => some (Pdg.getA pid)⟩ }

theorem gammaOnly_build : ∃ s, build gammaOnly pairNucleus 10 2 ⟨false⟩ = .ok s ∧
    s.2 = [⟨.gamLevel ⟨0, 0, ⟨true⟩, []⟩, 1 / (2 * Real.pi)⟩] ∧ 0 < s.1 := by
  have hg : gamDiscreteWidth gammaOnly (parent gammaOnly pairNucleus 10 2 ⟨false⟩)
      ⟨0, 0, ⟨true⟩, []⟩ = 1 / (2 * Real.pi) := by
    unfold gamDiscreteWidth
    rw [if_neg (by norm_num [parent]), mpolLoop_eq]
    have : upTo 0 (max 1 (|(parent gammaOnly pairNucleus 10 2 ⟨false⟩).twoJ - 0|.tdiv 2))
        (((parent gammaOnly pairNucleus 10 2 ⟨false⟩).twoJ + 0).tdiv 2) = [1] := by
      show upTo 0 (max 1 (|(2 : Int) - 0|.tdiv 2)) (((2 : Int) + 0).tdiv 2) = [1]
      decide +kernel
    rw [this]
    simp [gammaOnly, pairData, parent, initialDensity]
  have hsch : ∀ n, gammaOnly.scheme n = .ok (some (twoLevels n)) := fun _ => rfl
  have hpdg : (parent gammaOnly pairNucleus 10 2 ⟨false⟩).pdg = 1000190400 := rfl
  have hEx : (parent gammaOnly pairNucleus 10 2 ⟨false⟩).Ex = 10 := rfl
  have hfr : gammaOnly.frags = [] := rfl
  have hd : ¬ initialDensity gammaOnly pairNucleus.pdg 10 2 ⟨false⟩ = 0 := one_ne_zero
  unfold build channels
  rw [if_neg hd]
  generalize parent gammaOnly pairNucleus 10 2 ⟨false⟩ = c at *
  generalize gammaOnly = D at *
  have hlast : ∀ n, contMin (some (twoLevels n)) = 100 := by
    intro n
    simp [contMin, twoLevels]
  rw [hfr]
  unfold fragmentLoop
  dsimp only
  unfold addGammas
  rw [hpdg, hsch]
  dsimp only
  rw [hEx]
  unfold addChannels
  rw [hlast]
  simp only [twoLevels]
  rw [if_pos trivial]
  unfold levelLoop
  rw [if_pos (by norm_num), hg]
  dsimp only
  unfold levelLoop
  rw [if_neg (by norm_num)]
  dsimp only
  rw [if_neg (by norm_num)]
  have hp := Real.pi_pos
  refine ⟨_, rfl, rfl, ?_⟩
  simp only [Channels.push]
  positivity

/-- The event with this nucleus. -/
noncomputable def gammaEvent : Event ℝ := ⟨[], [⟨11, 1, 0, 0, 0, 1, -1⟩, pairNucleus], 10, 2, ⟨false⟩⟩

/-- The decay takes two numbers. -/
theorem gammaOnly_decay {G : Type} (E : Engine G) (g : G) : ∃ q : Product × Bool,
    hfDecay exact E 1 gammaOnly pairNucleus 10 2 ⟨false⟩ g
      = some (.ok (q, (E.draw (E.draw g).2).2)) ∧ q.2 = false := by
  obtain ⟨s, h1, h2, h3⟩ := gammaOnly_build
  have hx : sampleExit E s g = .ok (⟨.gamLevel ⟨0, 0, ⟨true⟩, []⟩, 1 / (2 * Real.pi)⟩, g) := by
    unfold sampleExit
    rw [if_neg (not_le.2 h3), h2]
    simp [pickFrom]
  unfold hfDecay
  rw [h1]
  dsimp only
  rw [hx]
  dsimp only [Kind.decay]
  have m1 : Mass.particleMass gammaOnly.mass 22 = .ok 0 := by
    simp [Mass.particleMass, gammaOnly]
  have m2 : Mass.particleMass gammaOnly.mass Mass.ELECTRON = .ok 0 := by
    simp [Mass.particleMass, Mass.ELECTRON, gammaOnly]
  have e3 : Pdg.charge 22 = .ok 0 := by decide
  have m3 : Mass.atomicMassPid gammaOnly.mass 1000190400 true = .ok (some (40 * Mass.microAmu)) := by
    have e2 : Pdg.getA 1000190400 = 40 := by decide
    simp [Mass.atomicMassPid, Mass.lookupPid, Mass.toMeV, gammaOnly, e2]
  unfold levelDecay prepareProducts
  simp only [Kind.emitted, Kind.final, m1, m2, e3,
    show (parent gammaOnly pairNucleus 10 2 ⟨false⟩).pdg = 1000190400 from rfl, m3]
  have hd : ∀ c phi : ℝ, ∃ a, twoBodyDecay pairNucleus ⟨22, 0, 0, 0, 0, 0, 0⟩
      ⟨1000190400, 40 * Mass.microAmu - ((parent gammaOnly pairNucleus 10 2 ⟨false⟩).q
        - Pdg.getZ 22 : Int) * 0 + 0, 0, 0, 0, 40 * Mass.microAmu
        - ((parent gammaOnly pairNucleus 10 2 ⟨false⟩).q - Pdg.getZ 22 : Int) * 0 + 0,
        (parent gammaOnly pairNucleus 10 2 ⟨false⟩).q - Pdg.getZ 22⟩ c phi = .ok a := by
    intro c phi
    unfold twoBodyDecay
    dsimp only
    rw [if_neg (by norm_num [pairNucleus, Mass.microAmu]), if_neg (by norm_num [pairNucleus])]
    simp [pairNucleus, lorentzBoost, beta2, show ¬ (1 : ℝ) < 0 by norm_num]
  obtain ⟨a, ha⟩ := hd (uniform exact E (-1) 1 true g).1
    (uniform exact E 0 (2 * Real.pi) false (uniform exact E (-1) 1 true g).2).1
  rw [ha]
  exact ⟨_, rfl, rfl⟩

/-- The hypotheses of the theorem on chains hold for this nucleus, and for the chains after which the event has
three particles. -/
example : cutoff < (10 : ℝ) ∧ gammaEvent.final[1]? = some pairNucleus ∧
    ∀ k, MeasurableSet {x : (Fin k → ℝ) × (ℕ → ℝ) |
      Settles (fun _ E g => hfDecay exact E 1 gammaOnly pairNucleus 10 2 ⟨false⟩ g)
        {q | Onwards exact reader 1 gammaOnly 1 gammaEvent {y | y.1.final.length = 3} q x.2} k x.1} := by
  refine ⟨by norm_num [cutoff], rfl, fun k => ?_⟩
  have key : ∀ (v : Fin k → ℝ) (ω : ℕ → ℝ),
      Settles (fun _ E g => hfDecay exact E 1 gammaOnly pairNucleus 10 2 ⟨false⟩ g)
        {q | Onwards exact reader 1 gammaOnly 1 gammaEvent {y | y.1.final.length = 3} q ω} k v
        ↔ k = 2 := by
    intro v ω
    obtain ⟨q, hq, hc⟩ := gammaOnly_decay replay (List.ofFn v ++ [0])
    unfold Settles
    dsimp only
    rw [hq]
    have hon : Onwards exact reader 1 gammaOnly 1 gammaEvent {y | y.1.final.length = 3} q ω := by
      unfold Onwards Course
      rw [hc]
      refine ⟨(Scheme.emit gammaEvent q.1.nucleus q.1.emitted, false, q.1.Ex), ω, ?_, ?_⟩
      · simp [hfLoop]
      · simp [Scheme.emit, gammaEvent]
    constructor
    · rintro ⟨a, -, h⟩
      simp only [Option.some.injEq, Except.ok.injEq, Prod.mk.injEq] at h
      have := congrArg List.length h.2
      simp [replay] at this
      omega
    · rintro rfl
      exact ⟨q, hon, by simp [replay, List.ofFn_succ]⟩
  simp only [key]
  by_cases h : k = 2 <;> simp [h]

end Marley.Props
