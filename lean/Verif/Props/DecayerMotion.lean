import Verif.Props.Decayer

/-!
# C87: energy and momentum in the nucleus decayer
-/

set_option autoImplicit false

namespace Marley.Props
open Marley Marley.Decay Marley.Kin
open Marley.Sampling (Arith Engine exact)

variable {G : Type}

theorem twoBody_lighter {t a b a' b' : Particle ℝ} {c phi : ℝ}
    (h : twoBodyDecay t a b c phi = .ok (a', b')) : a'.mass + b'.mass ≤ t.mass := by
  obtain ⟨⟨-, h1, -⟩, -, h2, -⟩ := decay_species h
  unfold twoBodyDecay at h
  dsimp only at h
  by_contra hc
  rw [if_pos (by rw [← h1, ← h2]; exact not_le.1 hc)] at h
  simp at h

/-- No particle of the table has a negative mass. -/
def MassesNonneg (D : Data) : Prop := ∀ id m, Mass.particleMass D.mass id = .ok m → 0 ≤ m

theorem thrown_mass {A : Arith} {E : Engine G} {D : Data} (hD : MassesNonneg D)
    {re nuc em : Particle ℝ} (h : Thrown A E D re nuc em) : 0 ≤ em.mass ∧ em.mass + nuc.mass ≤ re.mass := by
  obtain ⟨⟨a, b, g, phi, h1⟩, h2⟩ := h
  refine ⟨?_, twoBody_lighter h1⟩
  rcases h2 with h2 | h2
  · exact h2.symm.le
  · exact hD _ _ h2

theorem history_mass {A : Arith} {E : Engine G} {D : Data} (hD : MassesNonneg D)
    {re re' : Particle ℝ} {ps : List (Particle ℝ)} (h : History D (Thrown A E D) re ps re') :
    re'.mass ≤ re.mass := by
  induction h with
  | done => exact le_rfl
  | emit s r _ ih =>
    have := thrown_mass hD r
    linarith

theorem thrown_motion {E : Engine G} (hE : E.Lawful) {D : Data} (hD : MassesNonneg D)
    {re nuc em : Particle ℝ} (h : Thrown exact E D re nuc em) (hre : OnShell re) (hnuc : 0 < nuc.mass) :
    OnShell em ∧ OnShell nuc ∧ SumsTo em nuc re := by
  obtain ⟨h0, hle⟩ := thrown_mass hD h
  obtain ⟨⟨a, b, g, phi, h1⟩, -⟩ := h
  obtain ⟨⟨-, ha, -⟩, -, hb, -⟩ := decay_species h1
  rw [ha] at h0 hle
  rw [hb] at hnuc hle
  have hc : (Sampling.uniform exact E (-1) 1 true g).1 ^ 2 ≤ 1 := by
    have c1 := Sampling.uniform_ge Sampling.exact_lawful hE true (min := -1) (max := 1) rfl
      (by norm_num) g
    have c2 : (Sampling.uniform exact E (-1) 1 true g).1 ≤ 1 := Sampling.uniform_le
      Sampling.exact_lawful hE true (min := -1) (max := 1) rfl rfl (by norm_num) g
    nlinarith
  obtain ⟨a', b', e1, e2, e3, -, -, e4, -⟩ := C47_conserves phi hre (by linarith) h0 hnuc.le hle hc
  rw [h1] at e1
  simp only [Except.ok.injEq, Prod.mk.injEq] at e1
  obtain ⟨rfl, rfl⟩ := e1
  exact ⟨e2, e3, e4⟩

theorem history_motion {E : Engine G} (hE : E.Lawful) {D : Data} (hD : MassesNonneg D)
    {re re' : Particle ℝ} {ps : List (Particle ℝ)} (h : History D (Thrown exact E D) re ps re')
    (hre : OnShell re) (hm : 0 < re'.mass) :
    OnShell re' ∧ (∀ p ∈ ps, OnShell p) ∧ SameTotals (re' :: ps) [re] := by
  induction h with
  | done => exact ⟨hre, by simp, ⟨rfl, rfl, rfl, rfl⟩⟩
  | emit s r t ih =>
    obtain ⟨h1, h2, h3, h4, h5, h6⟩ := thrown_motion hE hD r hre (lt_of_lt_of_le hm (history_mass hD t))
    obtain ⟨i1, i2, i3, i4, i5, i6⟩ := ih h2 hm
    simp only [List.map_cons, List.sum_cons, List.map_nil, List.sum_nil, add_zero] at i3 i4 i5 i6
    refine ⟨i1, ?_, ?_, ?_, ?_, ?_⟩
    · intro p hp
      rcases List.mem_cons.1 hp with rfl | hp
      · exact h1
      · exact i2 p hp
    all_goals
      simp only [List.map_cons, List.sum_cons, List.map_nil, List.sum_nil, add_zero]
      linarith

/-- C87: de-excitation conserves total energy and momentum and leaves particles on their mass
shells, however many particles are emitted, and also if an exception is thrown in the middle.
The residue must be on its mass shell before; after it, it must have a positive mass. -/
theorem C87_conserves {E : Engine G} (hE : E.Lawful) {fuel : Nat} {D : Data} (hD : MassesNonneg D)
    {ev ev' : Event ℝ} {g : G} {r : Res G} (h : process exact E fuel D ev g = some (ev', r))
    (hon : ∀ p ∈ ev.final, OnShell p) (hm : ∀ p, ev'.final[1]? = some p → 0 < p.mass) :
    SameTotals ev'.final ev.final ∧ ∀ p ∈ ev'.final, OnShell p := by
  rcases C50_kept h with rfl | ⟨ej, re, rest, re', ps, h1, h2⟩
  · exact ⟨⟨rfl, rfl, rfl, rfl⟩, hon⟩
  · obtain ⟨re'', ps', e1, e2⟩ := process_history h1 h
    rw [h1] at hon ⊢
    have hm' : 0 < re''.mass := hm re'' (by rw [e1]; rfl)
    obtain ⟨i1, i2, i3, i4, i5, i6⟩ := history_motion hE hD e2 (hon re (by simp)) hm'
    simp only [List.map_cons, List.sum_cons, List.map_nil, List.sum_nil, add_zero] at i3 i4 i5 i6
    rw [e1]
    refine ⟨⟨?_, ?_, ?_, ?_⟩, ?_⟩
    · simp only [leave, List.map_cons, List.map_append, List.sum_cons, List.sum_append]; linarith
    · simp only [leave, List.map_cons, List.map_append, List.sum_cons, List.sum_append]; linarith
    · simp only [leave, List.map_cons, List.map_append, List.sum_cons, List.sum_append]; linarith
    · simp only [leave, List.map_cons, List.map_append, List.sum_cons, List.sum_append]; linarith
    · intro p hp
      simp only [leave, List.mem_cons, List.mem_append] at hp
      rcases hp with rfl | rfl | hp | hp
      · exact hon _ (by simp)
      · exact i1
      · exact hon p (by simp [hp])
      · exact i2 p hp

/-- Non-vacuity: an excited ion of potassium-40 at rest emits a gamma ray; energy and momentum of the
three final particles are those of the two particles before. -/
example : MassesNonneg (gapData 1) ∧ ∃ ev', process exact Sampling.half 2 (gapData 1)
      (gapEvent 1 (gapIon (40 * Mass.microAmu + 1)) []) () = some (ev', .ok ()) ∧
    ev'.final.length = 3 ∧
    SameTotals ev'.final (gapEvent 1 (gapIon (40 * Mass.microAmu + 1)) []).final ∧
    ∀ p ∈ ev'.final, OnShell p := by
  have hu : (0 : ℝ) < Mass.microAmu := by norm_num [Mass.microAmu]
  have hD : MassesNonneg (gapData 1) := by
    intro id m h
    simp only [Mass.particleMass, gapData] at h
    split_ifs at h <;> simp at h <;> rw [← h] <;> positivity
  have hon : OnShell (gapIon (40 * Mass.microAmu + 1)) := by
    constructor <;> simp [gapIon] <;> positivity
  have hE : (Sampling.half).Lawful := fun _ => by norm_num [Sampling.half]
  obtain ⟨nuc, gam, h, -, -, -, hm⟩ := gap_run (E := Sampling.half) (g := ())
    (by norm_num [Sampling.half]) (d := 1) one_pos le_rfl
    (re := gapIon (40 * Mass.microAmu + 1)) rfl rfl hon (by simp [gapIon]) (by simp [gapIon]) []
  refine ⟨hD, _, h, rfl, C87_conserves hE hD h ?_ ?_⟩
  · intro p hp
    simp only [gapEvent, List.mem_cons, List.not_mem_nil, or_false] at hp
    rcases hp with rfl | rfl
    · constructor <;> simp
    · exact hon
  · intro p hp
    simp only [gapEvent, List.nil_append, List.getElem?_cons_succ, List.getElem?_cons_zero,
      Option.some.injEq] at hp
    rw [← hp, hm]
    positivity

end Marley.Props
