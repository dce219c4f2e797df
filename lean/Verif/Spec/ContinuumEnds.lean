import Verif.Model.Decayer
import Verif.Props.DecayScheme

/-! Specification for C134: data with which compound nuclei come to rest. -/

set_option autoImplicit false

namespace Marley.Decay
open Marley Marley.Props

/-- Not the emission of a gamma ray to the continuum. -/
def Kind.other : Kind → Bool
  | .gamCont _ => false
  | _ => true

/-- The widths of all channels but the emission of gamma rays to the continuum. -/
noncomputable def otherWidth (s : Channels) : ℝ :=
  ((s.2.filter (·.kind.other)).map (·.width)).sum

/-- Gamma rays lead down in all decay schemes; fragments have between one and nine nucleons; no
nucleus without nucleons is in the table of masses; and where a nucleus is barely above its highest
level (by no more than the tolerance of the sampling of energies, 1e-12) the channels other than gamma
rays to the continuum keep a share of the width. -/
structure Orderly (D : Data) : Prop where
  schemes : ∀ pdg s, D.scheme pdg = .ok (some s) → (s.levels.map (·.1)).Nodup ∧ Downward s
  fragments : ∀ f ∈ D.frags, 1 ≤ Pdg.getA f.pid ∧ Pdg.getA f.pid ≤ 9
  masses : ∀ Z A, -9 ≤ A → A ≤ 0 → D.mass.atomic (Pdg.nucleusPid Z A) = none
  shares : ∀ pdg ds, D.scheme pdg = .ok ds → ∃ δ > 0, ∀ (nucleus : Particle ℝ) (Ex : ℝ) (twoJ : Int)
    (P : Parity) (s : Channels), nucleus.pdg = pdg → cutoff < Ex → contMin ds < Ex →
    Ex ≤ contMin ds + 1e-12 → build D nucleus Ex twoJ P = .ok s → δ * s.1 ≤ otherWidth s

end Marley.Decay
