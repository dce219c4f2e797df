import Verif.Spec.RejectionLaw
import Verif.Props.DecayScheme

/-! Routes of gamma cascades and their probabilities. -/

set_option autoImplicit false

namespace Marley.Gammas
open Marley Marley.Scheme Marley.Sampling MeasureTheory
open Marley.Kin (OnShell SumsTo)
open Marley.Props (IsPhoton)

/-- `N` independent uniform numbers. -/
noncomputable def draws (N : Nat) : Measure (Fin N → ℝ) := Measure.pi fun _ => unit

/-- The relative intensities of the gammas of a level. -/
def intensities (l : Level ℝ) : List ℝ := l.gammas.map (·.ri)

/-- No intensity is negative and, where there are gammas, one is positive. -/
def Intense (s : Scheme ℝ) : Prop :=
  ∀ x ∈ s.levels, (∀ g ∈ x.2.gammas, 0 ≤ g.ri) ∧ (x.2.gammas ≠ [] → 0 < (intensities x.2).sum)

/-- `Way s a is p`: the gammas with the indices `is`, one after the other, lead from the
level at `a` to a level without gammas, and the product of their branching ratios, each
the intensity of the gamma over the sum for its level, is `p`. -/
inductive Way (s : Scheme ℝ) : Nat → List Nat → ℝ → Prop where
  | stop {a : Nat} {l : Level ℝ} : (a, l) ∈ s.levels → l.gammas = [] → Way s a [] 1
  | step {a b i : Nat} {l : Level ℝ} {g : Gamma ℝ} {is : List Nat} {p : ℝ} : (a, l) ∈ s.levels →
      l.gammas[i]? = some g → g.dest = some b → Way s b is p →
      Way s a (i :: is) (g.ri / (intensities l).sum * p)

/-- `Followed s a us is`: the numbers `us` stand for the route `is`.  A level with one gamma
uses up two numbers, for the direction; one with more gammas takes another one before them,
which falls into the part of the unit interval that belongs to the gamma. -/
inductive Followed (s : Scheme ℝ) : Nat → List ℝ → List Nat → Prop where
  | stop {a : Nat} {l : Level ℝ} {us : List ℝ} : (a, l) ∈ s.levels → l.gammas = [] →
      Followed s a us []
  | only {a b : Nat} {l : Level ℝ} {g : Gamma ℝ} {c phi : ℝ} {us : List ℝ} {is : List Nat} :
      (a, l) ∈ s.levels → l.gammas = [g] → g.dest = some b → Followed s b us is →
      Followed s a (c :: phi :: us) (0 :: is)
  | choice {a b i : Nat} {l : Level ℝ} {g : Gamma ℝ} {u c phi : ℝ} {us : List ℝ} {is : List Nat} :
      (a, l) ∈ s.levels → 2 ≤ l.gammas.length → l.gammas[i]? = some g → g.dest = some b →
      ((intensities l).take i).sum < u * (intensities l).sum →
      u * (intensities l).sum ≤ ((intensities l).take (i + 1)).sum → Followed s b us is →
      Followed s a (u :: c :: phi :: us) (i :: is)

/-- `Chain s a is re ps re'`: the nucleus `re`, in the level at `a`, turns into `re'`
by sending out the photons `ps`, one for each gamma of the route `is`.  Each step
conserves energy and momentum, and the mass of the nucleus goes down by the difference
between the energies of the two levels. -/
inductive Chain (s : Scheme ℝ) :
    Nat → List Nat → Particle ℝ → List (Particle ℝ) → Particle ℝ → Prop where
  | stop {a : Nat} {l : Level ℝ} {re : Particle ℝ} : (a, l) ∈ s.levels → l.gammas = [] →
      Chain s a [] re [] re
  | step {a b i : Nat} {l lf : Level ℝ} {g : Gamma ℝ} {is : List Nat}
      {re nu re' p : Particle ℝ} {ps : List (Particle ℝ)} : (a, l) ∈ s.levels →
      l.gammas[i]? = some g → g.dest = some b → (b, lf) ∈ s.levels → IsPhoton p → OnShell nu →
      nu.mass = re.mass - (l.energy - lf.energy) → SumsTo p nu re →
      Chain s b is nu ps re' → Chain s a (i :: is) re (p :: ps) re'

/-- The gammas of a level lead to levels of different energies. -/
def Distinct (s : Scheme ℝ) : Prop :=
  ∀ x ∈ s.levels, ∀ (i j : Nat) (g h : Gamma ℝ) (y z : Nat × Level ℝ),
    x.2.gammas[i]? = some g → x.2.gammas[j]? = some h →
    y ∈ s.levels → z ∈ s.levels → g.dest = some y.1 → h.dest = some z.1 →
    y.2.energy = z.2.energy → i = j

end Marley.Gammas
