import Verif.Spec.Paths
import Verif.Lemmas.Renewing
import Verif.Props.HauserFeshbach
import Verif.Lemmas.ContinuumEnds

/-! Lemmas for C135: stages of nuclei. -/

set_option autoImplicit false

namespace Marley.Decay
open Marley Marley.Sampling Marley.Kin Marley.Props MeasureTheory
open Marley.Scheme (Scheme Level)

variable {G : Type} {E : Engine G} {D : Data}

/-- What the products of a decay are, apart from their motion: the codes of the emitted particle and the nucleus,
and the charge and mass of the nucleus. -/
noncomputable def remains (D : Data) (c : Parent) (k : Kind) (M Exf : ℝ) : Res (Int × Int × Int × ℝ) :=
  match Mass.particleMass D.mass k.emitted with
  | .error e => .error e
  | .ok m =>
    match Pdg.charge k.emitted with
    | .error e => .error e
    | .ok _ =>
      match Mass.particleMass D.mass Mass.ELECTRON with
      | .error e => .error e
      | .ok me =>
        match Mass.atomicMassPid D.mass (k.final c.pdg) true with
        | .error e => .error e
        | .ok none => .error .ub
        | .ok (some mAtom) =>
          if M < m + (mAtom - (c.q - Pdg.getZ k.emitted : Int) * me + Exf) then .error .marleyError
          else .ok (k.emitted, k.final c.pdg, c.q - Pdg.getZ k.emitted,
            mAtom - (c.q - Pdg.getZ k.emitted : Int) * me + Exf)

theorem boost_ok {t : Particle ℝ} (ht : OnShell t) (hM : 0 < t.mass) (p : Particle ℝ) :
    ∃ q, lorentzBoost (-t.px / t.E) (-t.py / t.E) (-t.pz / t.E) p = .ok q := by
  have hE0 : 0 < t.E := lt_of_lt_of_le hM ht.mass_le
  have hb : (-t.px / t.E) ^ 2 + (-t.py / t.E) ^ 2 + (-t.pz / t.E) ^ 2 < 1 := by
    have : (-t.px / t.E) ^ 2 + (-t.py / t.E) ^ 2 + (-t.pz / t.E) ^ 2
        = (t.px ^ 2 + t.py ^ 2 + t.pz ^ 2) / t.E ^ 2 := by field_simp
    rw [this, div_lt_one (by positivity)]
    have := ht.shell
    nlinarith
  unfold lorentzBoost beta2
  dsimp only
  rw [if_neg hb.ne, if_neg (not_lt.2 hb.le)]
  dsimp only
  split_ifs <;> exact ⟨_, rfl⟩

theorem decay_goes {t : Particle ℝ} (ht : OnShell t) (hM : 0 < t.mass) (a b : Particle ℝ) (c phi : ℝ) :
    (t.mass < a.mass + b.mass ∧ twoBodyDecay t a b c phi = .error .marleyError) ∨
    (¬ t.mass < a.mass + b.mass ∧ ∃ p, twoBodyDecay t a b c phi = .ok p) := by
  have hE0 : 0 < t.E := lt_of_lt_of_le hM ht.mass_le
  by_cases h : t.mass < a.mass + b.mass
  · left
    refine ⟨h, ?_⟩
    unfold twoBodyDecay
    dsimp only
    rw [if_pos h]
  · right
    refine ⟨h, ?_⟩
    unfold twoBodyDecay
    dsimp only
    rw [if_neg h, if_neg (by rintro (h | h) <;> linarith)]
    obtain ⟨x, hx⟩ := boost_ok ht hM (setMomentum a _ _ _ _)
    rw [hx]
    dsimp only
    obtain ⟨y, hy⟩ := boost_ok ht hM (setMomentum b _ _ _ _)
    rw [hy]
    exact ⟨_, rfl⟩

/-- The species of the products. -/
def species (p : Particle ℝ × Particle ℝ) : Int × Int × Int × ℝ :=
  (p.1.pdg, p.2.pdg, p.2.charge, p.2.mass)

/-- The products of a decay are the same, apart from their motion, whatever the motion of the nucleus and
the numbers, of which two are used. -/
theorem products_species {t : Particle ℝ} (ht : OnShell t) (hM : 0 < t.mass) (c : Parent) (k : Kind)
    (Exf : ℝ) (g : G) :
    (prepareProducts exact E D c k t Exf g).map (fun x => (species x.1, x.2))
      = (remains D c k t.mass Exf).map (fun l => (l, (E.draw (E.draw g).2).2)) := by
  unfold prepareProducts remains
  cases Mass.particleMass D.mass k.emitted with
  | error e => rfl
  | ok m =>
    cases Pdg.charge k.emitted with
    | error e => rfl
    | ok q =>
      cases Mass.particleMass D.mass Mass.ELECTRON with
      | error e => rfl
      | ok me =>
        dsimp only
        cases Mass.atomicMassPid D.mass (k.final c.pdg) true with
        | error e => rfl
        | ok v =>
          cases v with
          | none => rfl
          | some mAtom =>
            dsimp only
            rcases decay_goes ht hM ⟨k.emitted, 0, 0, 0, 0, m, q⟩
              ⟨k.final c.pdg, mAtom - (c.q - Pdg.getZ k.emitted : Int) * me + Exf, 0, 0, 0,
                mAtom - (c.q - Pdg.getZ k.emitted : Int) * me + Exf, c.q - Pdg.getZ k.emitted⟩
              (uniform exact E (-1) 1 true g).1
              (uniform exact E 0 (2 * Real.pi) false (uniform exact E (-1) 1 true g).2).1 with
              ⟨h1, h2⟩ | ⟨h1, p, h2⟩
            · rw [h2, if_pos h1]
              rfl
            · rw [h2, if_neg h1]
              have hsp := decay_species (a' := p.1) (b' := p.2) h2
              simp only [Except.map, species, hsp.1.1, hsp.2.1, hsp.2.2.1, hsp.2.2.2]
              rfl

/-- Energy, spin and parity of the final nucleus for a channel. -/
noncomputable def inner {G : Type} (E : Engine G) (fuel : Nat) (D : Data) (c : Parent) (k : Kind) (g : G) :
    Option (Res ((ℝ × Int × Parity) × G)) :=
  match k with
  | .fragLevel _ lev | .gamLevel lev => some (.ok ((lev.energy, lev.twoJ, lev.parity), g))
  | .fragCont _ _ | .gamCont _ => chain (sampleExf exact E fuel D c k g) fun Exf g =>
      chain (some (sampleSpinParity E D c k Exf g)) fun jp g => some (.ok ((Exf, jp), g))

/-- A decay without regard to motion. -/
noncomputable def moves {G : Type} (E : Engine G) (fuel : Nat) (D : Data) (s : Stage) (g : G) :
    Option (Res (Stage × G)) :=
  match build D s.rest s.Ex s.twoJ s.P with
  | .error e => some (.error e)
  | .ok ch =>
    chain (some (sampleExit E ch g)) fun x g =>
      chain (inner E fuel D (parent D s.rest s.Ex s.twoJ s.P) x.kind g) fun y g =>
        chain (some ((remains D (parent D s.rest s.Ex s.twoJ s.P) x.kind s.mass y.1).map
            fun l => (l, (E.draw (E.draw g).2).2))) fun l g =>
          some (.ok (⟨x.kind.continuum, y.1, y.2.1, y.2.2, l.2.1, l.2.2.1, l.2.2.2, l.1⟩, g))

theorem kind_moves {t : Particle ℝ} (ht : OnShell t) (hM : 0 < t.mass) (fuel : Nat) (c : Parent)
    (k : Kind) (g : G) :
    (k.decay exact E fuel D c t g).map (Except.map fun x => (stage (x.1, k.continuum), x.2))
      = chain (inner E fuel D c k g) fun y g =>
        chain (some ((remains D c k t.mass y.1).map fun l => (l, (E.draw (E.draw g).2).2))) fun l g =>
          some (.ok (⟨k.continuum, y.1, y.2.1, y.2.2, l.2.1, l.2.2.1, l.2.2.2, l.1⟩, g)) := by
  have key : ∀ (k : Kind) (Exf : ℝ) (J : Int) (Q : Parity) (b : Bool) (g : G),
      ((match prepareProducts exact E D c k t Exf g with
        | .error e => .error e
        | .ok (p, g) => .ok (⟨Exf, J, Q, p.1, p.2⟩, g) : Res (Product × G))).map
          (fun x => (stage (x.1, b), x.2))
        = (match (remains D c k t.mass Exf).map fun l => (l, (E.draw (E.draw g).2).2) with
          | .error e => .error e
          | .ok (l, g) => .ok (⟨b, Exf, J, Q, l.2.1, l.2.2.1, l.2.2.2, l.1⟩, g) : Res (Stage × G)) := by
    intro k Exf J Q b g
    rw [← products_species ht hM c k Exf g]
    cases prepareProducts exact E D c k t Exf g with
    | error e => rfl
    | ok v => rfl
  have fin : ∀ (k : Kind) (y : ℝ × Int × Parity) (b : Bool) (g : G),
      chain (some ((remains D c k t.mass y.1).map fun l => (l, (E.draw (E.draw g).2).2))) (fun l g =>
          some (.ok ((⟨b, y.1, y.2.1, y.2.2, l.2.1, l.2.2.1, l.2.2.2, l.1⟩ : Stage), g)))
        = some (match (remains D c k t.mass y.1).map fun l => (l, (E.draw (E.draw g).2).2) with
          | .error e => .error e
          | .ok (l, g) => .ok (⟨b, y.1, y.2.1, y.2.2, l.2.1, l.2.2.1, l.2.2.2, l.1⟩, g)) := by
    intro k y b g
    cases remains D c k t.mass y.1 with
    | error e => rfl
    | ok l => rfl
  have lev : ∀ (k : Kind) (l : Level ℝ) (b : Bool), (some (levelDecay exact E D c k t l g)).map
      (Except.map fun x => (stage (x.1, b), x.2))
        = chain (some (.ok ((l.energy, l.twoJ, l.parity), g))) fun y g =>
        chain (some ((remains D c k t.mass y.1).map fun l => (l, (E.draw (E.draw g).2).2))) fun l g =>
          some (.ok (⟨b, y.1, y.2.1, y.2.2, l.2.1, l.2.2.1, l.2.2.2, l.1⟩, g)) := by
    intro k l b
    simp only [chain.eq_3]
    have := fin k (l.energy, l.twoJ, l.parity) b g
    dsimp only at this
    rw [this, ← key k l.energy l.twoJ l.parity b g]
    rfl
  have cont : ∀ (k : Kind) (b : Bool), (contDecay exact E fuel D c k t g).map
      (Except.map fun x => (stage (x.1, b), x.2))
        = chain (chain (sampleExf exact E fuel D c k g) fun Exf g =>
            chain (some (sampleSpinParity E D c k Exf g)) fun jp g => some (.ok ((Exf, jp), g)))
          fun y g =>
        chain (some ((remains D c k t.mass y.1).map fun l => (l, (E.draw (E.draw g).2).2))) fun l g =>
          some (.ok (⟨b, y.1, y.2.1, y.2.2, l.2.1, l.2.2.1, l.2.2.2, l.1⟩, g)) := by
    intro k b
    unfold contDecay
    rcases sampleExf exact E fuel D c k g with _ | e | ⟨Exf, g1⟩
    · rfl
    · rfl
    · simp only [chain.eq_3]
      rcases sampleSpinParity E D c k Exf g1 with e | ⟨jp, g2⟩
      · rfl
      · simp only [chain.eq_3]
        have := fin k (Exf, jp) b g2
        dsimp only at this
        rw [this, ← key k Exf jp.1 jp.2 b g2]
        cases prepareProducts exact E D c k t Exf g2 with
        | error e => rfl
        | ok v => rfl
  cases k with
  | fragLevel f l => exact lev _ l _
  | gamLevel l => exact lev _ l _
  | fragCont f r => exact cont _ _
  | gamCont r => exact cont _ _

/-- What a decay leaves depends on the nucleus only through its stage. -/
theorem decay_moves {t : Particle ℝ} (ht : OnShell t) (s : Stage) (hs : s.Is t) (hM : 0 < s.mass)
    (fuel : Nat) (g : G) :
    (hfDecay exact E fuel D t s.Ex s.twoJ s.P g).map (Except.map fun x => (stage x.1, x.2))
      = moves E fuel D s g := by
  obtain ⟨h1, h2, h3⟩ := hs
  have hp : parent D t s.Ex s.twoJ s.P = parent D s.rest s.Ex s.twoJ s.P := by
    simp [parent, Stage.rest, h1, h2]
  have hb : build D t s.Ex s.twoJ s.P = build D s.rest s.Ex s.twoJ s.P := by
    unfold build
    rw [hp, h1]
    rfl
  unfold hfDecay moves
  rw [hb, hp]
  cases build D s.rest s.Ex s.twoJ s.P with
  | error e => rfl
  | ok ch =>
    dsimp only
    rcases sampleExit E ch g with e | ⟨x, g1⟩
    · rfl
    · simp only [chain.eq_3]
      rw [← h3, ← kind_moves ht (by rw [h3]; exact hM)]
      rcases x.kind.decay exact E fuel D (parent D s.rest s.Ex s.twoJ s.P) t g1 with _ | e | v <;> rfl

section
variable {Ω : Type} [MeasurableSpace Ω] {μ : Measure Ω} {E : Engine Ω}

theorem exit_renewing (hI : Sampling.Ideal E μ) (ch : Channels) :
    Renewing μ fun ω => some (sampleExit E ch ω) := by
  by_cases h : ch.1 ≤ 0
  · exact (Renewing.pure hI.prob (some (.error .marleyError))).same fun ω => by
      rw [sampleExit, if_pos h]; rfl
  · refine (Renewing.bind hI.prob (pickFrom_renewing hI (ch.2.map (·.width)))
      (k := fun i ω => leaves (match ch.2[i]? with
        | none => some (.error .outOfRange)
        | some x => some (.ok x)) ω) fun i => Renewing.pure hI.prob _).same fun ω => ?_
    rw [sampleExit, if_neg h]
    cases hq : pickFrom E (ch.2.map (·.width)) ω with
    | error e => simp [hq, chain]
    | ok v =>
      obtain ⟨i, ω1⟩ := v
      simp only [hq, chain]
      cases ch.2[i]? <;> rfl

theorem exf_renewing (hI : Sampling.Ideal E μ) (fuel : Nat) (c : Parent) (k : Kind) :
    Renewing μ fun ω => sampleExf exact E fuel D c k ω := by
  unfold sampleExf
  cases k.bounds D c with
  | error e => exact (Renewing.pure hI.prob (some (.error e))).same fun ω => rfl
  | ok v =>
    dsimp only
    cases Cheb.make (fun x => (k.diff D c x).map (·.1)) v.1 v.2 64 with
    | error e => exact (Renewing.pure hI.prob (some (.error e))).same fun ω => rfl
    | ok pdf => exact inverse_renewing hI fuel _ _ _ _

theorem spin_renewing (hI : Sampling.Ideal E μ) (c : Parent) (k : Kind) (Exf : ℝ) :
    Renewing μ fun ω => some (sampleSpinParity E D c k Exf ω) := by
  unfold sampleSpinParity
  cases k.diff D c Exf with
  | error e => exact (Renewing.pure hI.prob (some (.error e))).same fun ω => rfl
  | ok a =>
    dsimp only
    by_cases h : a.1 ≤ 0
    · exact (Renewing.pure hI.prob (some (.error .marleyError))).same fun ω => by rw [if_pos h]; rfl
    · refine (Renewing.bind hI.prob (pickFrom_renewing hI (a.2.map (·.width)))
        (k := fun i ω => leaves (match a.2[i]? with
          | none => some (.error .outOfRange)
          | some x => some (.ok (x.twoJf, x.Pf))) ω) fun i => Renewing.pure hI.prob _).same fun ω => ?_
      rw [if_neg h]
      cases hq : pickFrom E (a.2.map (·.width)) ω with
      | error e => simp [hq, chain]
      | ok v =>
        obtain ⟨i, ω1⟩ := v
        simp only [hq, chain]
        cases a.2[i]? <;> rfl

theorem inner_renewing (hI : Sampling.Ideal E μ) (fuel : Nat) (c : Parent) (k : Kind) :
    Renewing μ fun ω => inner E fuel D c k ω := by
  have lev : ∀ l : Level ℝ, Renewing μ fun ω : Ω =>
      (some (.ok ((l.energy, l.twoJ, l.parity), ω)) : Option (Res ((ℝ × Int × Parity) × Ω))) :=
    fun l => Renewing.pure hI.prob (some (.ok (l.energy, l.twoJ, l.parity)))
  have cont : ∀ k : Kind, Renewing μ fun ω => chain (sampleExf exact E fuel D c k ω) fun Exf g =>
      chain (some (sampleSpinParity E D c k Exf g)) fun jp g =>
        (some (.ok ((Exf, jp), g)) : Option (Res ((ℝ × Int × Parity) × Ω))) := fun k =>
    Renewing.bind hI.prob (exf_renewing hI fuel c k) fun Exf =>
      Renewing.bind hI.prob (spin_renewing hI c k Exf) fun jp =>
        Renewing.pure hI.prob (some (.ok (Exf, jp)))
  cases k with
  | fragLevel f l => exact lev l
  | gamLevel l => exact lev l
  | fragCont f r => exact cont _
  | gamCont r => exact cont _

theorem two_renewing (hI : Sampling.Ideal E μ) {α : Type} (r : Res α) :
    Renewing μ fun ω => some (r.map fun l => (l, (E.draw (E.draw ω).2).2)) := by
  cases r with
  | error e => exact (Renewing.pure hI.prob (some (.error e))).same fun ω => rfl
  | ok a =>
    have one : ∀ {β : Type} (b : β), Renewing μ fun ω => leaves (some (.ok b)) (E.draw ω).2 :=
      fun b => Renewing.draw hI (fun _ => some (.ok b)) (C := {b}) (Set.countable_singleton b)
        (fun u a h => by simpa [eq_comm] using h) fun a => by
          by_cases h : b = a <;> simp [h]
    exact (Renewing.bind hI.prob (one a) (k := fun a ω => leaves (some (.ok a)) (E.draw ω).2)
      fun a => one a).same fun ω => rfl

theorem moves_renewing (hI : Sampling.Ideal E μ) (fuel : Nat) (s : Stage) :
    Renewing μ fun ω => moves E fuel D s ω := by
  unfold moves
  cases build D s.rest s.Ex s.twoJ s.P with
  | error e => exact (Renewing.pure hI.prob (some (.error e))).same fun ω => rfl
  | ok ch =>
    exact Renewing.bind hI.prob (exit_renewing hI ch) fun x =>
      Renewing.bind hI.prob (inner_renewing hI fuel _ x.kind) fun y =>
        Renewing.bind hI.prob (two_renewing hI _) fun l =>
          Renewing.pure hI.prob (some (.ok _))

end

/-! ### Motion -/

theorem products_shell {t : Particle ℝ} (ht : OnShell t) (hM : 0 < t.mass) {c : Parent} {k : Kind}
    {Exf : ℝ} {g g' : G} {p : Particle ℝ × Particle ℝ} (hu : (E.draw g).1 ∈ Set.Ico (0 : ℝ) 1)
    (h : prepareProducts exact E D c k t Exf g = .ok (p, g')) (h1 : 0 ≤ p.1.mass) (h2 : 0 ≤ p.2.mass) :
    OnShell p.2 := by
  unfold prepareProducts at h
  repeat' split at h
  all_goals first
    | (cases h; done)
    | skip
  dsimp only at h
  split at h
  · cases h
  · rename_i q hd
    cases h
    have hsp := decay_species (a' := p.1) (b' := p.2) hd
    rw [hsp.1.2.1] at h1
    rw [hsp.2.2.1] at h2
    have hc : (uniform exact E (-1) 1 true g).1 ^ 2 ≤ 1 := by
      rw [uniform_exact]
      dsimp only
      nlinarith [hu.1, hu.2]
    rcases decay_goes ht hM _ _ _ _ with ⟨_, h3⟩ | ⟨h3, _⟩
    · rw [hd] at h3; cases h3
    · obtain ⟨a', b', c1, -, c3, -⟩ := C47_conserves _ ht hM h1 h2 (not_lt.1 h3) hc
      rw [hd] at c1
      cases c1
      exact c3

/-- What is left moves as particles do. -/
theorem decay_shell (hlight : ∀ id m, Mass.particleMass D.mass id = .ok m → 0 ≤ m) {t : Particle ℝ}
    (ht : OnShell t) (hM : 0 < t.mass) {fuel : Nat} {Ex : ℝ} {twoJ : Int} {P : Parity} {g g' : G}
    {q : Product × Bool} (ho : Often E g)
    (h : hfDecay exact E fuel D t Ex twoJ P g = some (.ok (q, g'))) (hq : 0 ≤ q.1.nucleus.mass) :
    OnShell q.1.nucleus ∧ Often E g' := by
  have det : ∀ {α : Type} {f : Sampler α} {g g' : G} {a : α}, Determined f → Often E g →
      f G E g = some (.ok (a, g')) → Often E g' := by
    intro α f g g' a hf ho h
    obtain ⟨n, r, hn⟩ := hf G E g
    have := hn G E g rfl
    rw [h] at this
    match r, this with
    | some (.ok b), this =>
      simp only [leaves, Option.some.injEq, Except.ok.injEq, Prod.mk.injEq] at this
      rw [this.2]
      exact ho.after n
  refine ⟨?_, det (f := fun _ E g => hfDecay exact E fuel D t Ex twoJ P g)
    (hfDecay_determined exact fuel D t Ex twoJ P) ho h⟩
  have fin : ∀ {c : Parent} {k : Kind} {Exf : ℝ} {g g' : G} {p : Particle ℝ × Particle ℝ},
      Often E g → prepareProducts exact E D c k t Exf g = .ok (p, g') → 0 ≤ p.2.mass → OnShell p.2 :=
    fun ho h h2 => products_shell ht hM (ho.inside 0) h (hlight _ _ (products_ok h).emitted_mass) h2
  unfold hfDecay at h
  split at h
  · cases h
  · split at h
    · cases h
    · rename_i x g1 hx
      have ho1 : Often E g1 := det (f := fun _ E g => some (sampleExit E _ g))
        (sampleExit_determined _) ho (congrArg some hx)
      split at h
      · cases h
      · cases h
      · rename_i p g2 hk
        cases h
        have lev : ∀ (k : Kind) (l : Level ℝ), levelDecay exact E D (parent D t Ex twoJ P) k t l g1
            = .ok (p, g') → OnShell p.nucleus := by
          intro k l hl
          unfold levelDecay at hl
          split at hl
          · cases hl
          · rename_i hp
            cases hl
            exact fin ho1 hp hq
        have cont : ∀ k : Kind, contDecay exact E fuel D (parent D t Ex twoJ P) k t g1
            = some (.ok (p, g')) → OnShell p.nucleus := by
          intro k hl
          unfold contDecay at hl
          split at hl
          · cases hl
          · cases hl
          · rename_i Exf g3 hE
            have ho3 : Often E g3 := det (f := fun _ E g => sampleExf exact E fuel D _ k g)
              (sampleExf_determined exact fuel D _ k) ho1 hE
            split at hl
            · cases hl
            · rename_i jp g4 hs
              have ho4 : Often E g4 := det (f := fun _ E g => some (sampleSpinParity E D _ k Exf g))
                (sampleSpinParity_determined D _ k Exf) ho3 (congrArg some hs)
              split at hl
              · cases hl
              · rename_i hp
                cases hl
                exact fin ho4 hp hq
        cases hkind : x.kind with
        | fragLevel f l => rw [hkind] at hk; exact lev _ l (by simpa [Kind.decay] using hk)
        | gamLevel l => rw [hkind] at hk; exact lev _ l (by simpa [Kind.decay] using hk)
        | fragCont f r => rw [hkind] at hk; exact cont _ hk
        | gamCont r => rw [hkind] at hk; exact cont _ hk

end Marley.Decay
