import Verif.Spec.Decayer
import Verif.Props.HauserFeshbach
import Verif.Props.DecayScheme

/-!
# Runs of the nucleus decayer
-/

set_option autoImplicit false

namespace Marley.Decay
open Marley Marley.Props
open Marley.Scheme (Scheme Level levelAt closestLevel)
open Marley.Sampling (Arith Engine)

variable {G : Type}

theorem emit_final {ev : Event ℝ} {ej re : Particle ℝ} {rest : List (Particle ℝ)}
    (h : ev.final = ej :: re :: rest) (nuc em : Particle ℝ) :
    (Scheme.emit ev nuc em).final = ej :: nuc :: (rest ++ [em]) := by
  simp [Scheme.emit, h]

/-- The emission is a two-body decay in a random direction, and the emitted particle has no
mass or that of the table. -/
def Thrown (A : Arith) (E : Engine G) (D : Data) (re nuc em : Particle ℝ) : Prop :=
  (∃ a b g phi, Kin.twoBodyDecay re a b (Sampling.uniform A E (-1) 1 true g).1 phi = .ok (em, nuc)) ∧
    (em.mass = 0 ∨ Mass.particleMass D.mass em.pdg = .ok em.mass)

/-- An event with other products. -/
abbrev leave (ev : Event ℝ) (ej re : Particle ℝ) (rest ps : List (Particle ℝ)) : Event ℝ :=
  { ev with final := ej :: re :: (rest ++ ps) }

theorem leave_nil {ev : Event ℝ} {ej re : Particle ℝ} {rest : List (Particle ℝ)}
    (h : ev.final = ej :: re :: rest) : leave ev ej re rest [] = ev := by
  cases ev
  simp_all [leave]

theorem leave_emit (ev : Event ℝ) (nuc em ej re : Particle ℝ) (rest ps : List (Particle ℝ)) :
    leave (Scheme.emit ev nuc em) ej re (rest ++ [em]) ps = leave ev ej re rest (em :: ps) := by
  simp [leave, Scheme.emit]

/-- How a cascade ends if it ends well: at a level without gammas; it is the first one if
nothing was emitted. -/
def CascadeEnd (D : Data) (s : Scheme ℝ) (q : Int) (a : Nat) (re' : Particle ℝ)
    (ps : List (Particle ℝ)) : Prop :=
  ∃ b lb, levelAt s b = some lb ∧ lb.gammas = [] ∧
    ((ps = [] ∧ b = a) ∨ (ps ≠ [] ∧ re'.pdg = Pdg.nucleusPid s.Z s.A ∧ re'.charge = q ∧
      Excited D re' lb.energy 0))

theorem cascade_history {A : Arith} {E : Engine G} {D : Data} {s : Scheme ℝ} {q : Int} (n : Nat) :
    ∀ {a : Nat} {ev ev' : Event ℝ} {g : G} {r : Res G} {ej re : Particle ℝ} {rest : List (Particle ℝ)},
      ev.final = ej :: re :: rest → re.charge = q → (Filed D → re.pdg = Pdg.nucleusPid s.Z s.A) →
      cascade A E D s q n a ev g = some (ev', r) →
      ∃ re' ps, ev' = leave ev ej re' rest ps ∧ History D (Thrown A E D) re ps re' ∧
        ∀ g', r = .ok g' → CascadeEnd D s q a re' ps := by
  induction n with
  | zero => intro a ev ev' g r ej re rest _ _ _ h; simp [cascade] at h
  | succ n ih =>
    intro a ev ev' g r ej re rest hev hq hp h
    have stop : ∀ (e : Exc) (r : Res G), some (ev, (.error e : Res G)) = some (ev', r) →
        ∃ re' ps, ev' = leave ev ej re' rest ps ∧ History D (Thrown A E D) re ps re' ∧
          ∀ g', r = .ok g' → CascadeEnd D s q a re' ps := by
      intro e r h
      simp only [Option.some.injEq, Prod.mk.injEq] at h
      obtain ⟨rfl, rfl⟩ := h
      exact ⟨re, [], (leave_nil hev).symm, .done re, by simp⟩
    unfold cascade at h
    cases h1 : levelAt s a with
    | none => rw [h1] at h; exact stop _ _ h
    | some l =>
      rw [h1] at h
      dsimp only at h
      by_cases h2 : l.gammas = []
      · rw [if_pos h2] at h
        simp only [Option.some.injEq, Prod.mk.injEq] at h
        obtain ⟨rfl, rfl⟩ := h
        exact ⟨re, [], (leave_nil hev).symm, .done re, fun g' _ => ⟨a, l, h1, h2, Or.inl ⟨rfl, rfl⟩⟩⟩
      rw [if_neg h2] at h
      cases h3 : Sampling.pickFrom E (l.gammas.map (·.ri)) g with
      | error e => rw [h3] at h; exact stop _ _ h
      | ok y =>
        obtain ⟨i, g1⟩ := y
        rw [h3] at h
        dsimp only at h
        cases h4 : l.gammas[i]? with
        | none => rw [h4] at h; exact stop _ _ h
        | some gam =>
          rw [h4] at h
          dsimp only at h
          cases h5 : gam.dest with
          | none => rw [h5] at h; exact stop _ _ h
          | some b =>
            rw [h5] at h
            dsimp only at h
            cases h6 : levelAt s b with
            | none => rw [h6] at h; exact stop _ _ h
            | some lf =>
              rw [h6] at h
              dsimp only at h
              cases h7 : Mass.atomicMassPid D.mass (Pdg.nucleusPid s.Z s.A) true with
              | error e => rw [h7] at h; exact stop _ _ h
              | ok o =>
                rw [h7] at h
                cases o with
                | none => exact stop _ _ h
                | some mAtom =>
                  dsimp only at h
                  cases h8 : Mass.particleMass D.mass Mass.ELECTRON with
                  | error e => rw [h8] at h; exact stop _ _ h
                  | ok me =>
                    rw [h8, hev] at h
                    simp only [List.getElem?_cons_succ, List.getElem?_cons_zero] at h
                    split at h
                    · exact stop _ _ h
                    · rename_i gamma nucleus h9
                      obtain ⟨⟨s1, s2, s3⟩, s4, s5, s6⟩ := decay_species h9
                      dsimp only at s1 s2 s3 s4 s5 s6
                      obtain ⟨re', ps, e1, e2, e3⟩ := ih (emit_final hev nucleus gamma) s6
                        (fun _ => s4) h
                      refine ⟨re', gamma :: ps, ?_, ?_, ?_⟩
                      · rw [e1, leave_emit]
                      · exact .emit (.gamma s1 s3 (by rw [s6, hq]) (fun hf => by rw [s4, hp hf]))
                          ⟨⟨_, _, _, _, h9⟩, Or.inl s2⟩ e2
                      · intro g' hg
                        obtain ⟨c, lc, f1, f2, f3⟩ := e3 g' hg
                        refine ⟨c, lc, f1, f2, Or.inr ⟨by simp, ?_⟩⟩
                        rcases f3 with ⟨rfl, rfl⟩ | ⟨-, f3⟩
                        · cases e2
                          rw [h6] at f1
                          cases f1
                          refine ⟨s4, s6, mAtom - q * me, ⟨mAtom, me, ?_, h8, by rw [s6]⟩, ?_⟩
                          · rw [s4, h7]
                          · rw [s5, show mAtom + lf.energy - q * me - (mAtom - q * me + lf.energy) = 0 by
                              ring, abs_zero]
                        · exact f3

/-! ## Decays of compound nuclei -/

theorem products_thrown {A : Arith} {E : Engine G} {D : Data} {c : Parent} {k : Kind}
    {nucleus : Particle ℝ} {Exf : ℝ} {g g' : G} {p : Particle ℝ × Particle ℝ}
    (h : prepareProducts A E D c k nucleus Exf g = .ok (p, g')) : Thrown A E D nucleus p.2 p.1 := by
  have hm := (products_ok h).emitted_mass
  rw [← (products_ok h).emitted] at hm
  refine ⟨?_, Or.inr hm⟩
  unfold prepareProducts at h
  split at h
  · simp at h
  split at h
  · simp at h
  dsimp only at h
  split at h
  · simp at h
  split at h
  · simp at h
  · simp at h
  split at h
  · simp at h
  · rename_i p' hp
    simp only [Except.ok.injEq, Prod.mk.injEq] at h
    obtain ⟨rfl, -⟩ := h
    exact ⟨_, _, _, _, hp⟩

theorem kind_thrown {A : Arith} {E : Engine G} {fuel : Nat} {D : Data} {c : Parent}
    {nucleus : Particle ℝ} {k : Kind} {g g' : G} {p : Product}
    (h : k.decay A E fuel D c nucleus g = some (.ok (p, g'))) :
    Thrown A E D nucleus p.nucleus p.emitted := by
  have level : ∀ lev, levelDecay A E D c k nucleus lev g = .ok (p, g') →
      Thrown A E D nucleus p.nucleus p.emitted := by
    intro lev h
    unfold levelDecay at h
    split at h
    · simp at h
    · rename_i h1
      simp only [Except.ok.injEq, Prod.mk.injEq] at h
      obtain ⟨rfl, -⟩ := h
      exact products_thrown h1
  have cont : contDecay A E fuel D c k nucleus g = some (.ok (p, g')) →
      Thrown A E D nucleus p.nucleus p.emitted := by
    intro h
    unfold contDecay at h
    split at h
    · simp at h
    · simp at h
    split at h
    · simp at h
    split at h
    · simp at h
    · rename_i h1
      simp only [Option.some.injEq, Except.ok.injEq, Prod.mk.injEq] at h
      obtain ⟨rfl, -⟩ := h
      exact products_thrown h1
  unfold Kind.decay at h
  cases k with
  | fragLevel f lev => exact level lev (by simpa using h)
  | gamLevel lev => exact level lev (by simpa using h)
  | fragCont f Emin => exact cont h
  | gamCont Emin => exact cont h

theorem hf_thrown {A : Arith} {E : Engine G} {fuel : Nat} {D : Data} {nucleus : Particle ℝ} {Ex : ℝ}
    {twoJ : Int} {P : Parity} {g g' : G} {p : Product} {b : Bool}
    (h : hfDecay A E fuel D nucleus Ex twoJ P g = some (.ok ((p, b), g'))) :
    Thrown A E D nucleus p.nucleus p.emitted := by
  unfold hfDecay at h
  split at h
  · simp at h
  split at h
  · simp at h
  split at h
  · simp at h
  · simp at h
  · rename_i h1
    simp only [Option.some.injEq, Except.ok.injEq, Prod.mk.injEq] at h
    obtain ⟨⟨rfl, -⟩, -⟩ := h
    exact kind_thrown h1

/-- The products of a decay, without conditions. -/
theorem kind_produced {A : Arith} {E : Engine G} {fuel : Nat} {D : Data} {c : Parent}
    {nucleus : Particle ℝ} {k : Kind} {g g' : G} {p : Product}
    (h : k.decay A E fuel D c nucleus g = some (.ok (p, g'))) :
    Produced D c k p.Ex (p.emitted, p.nucleus) ∧
      ∀ lev, (k = .gamLevel lev ∨ ∃ f, k = .fragLevel f lev) → p.Ex = lev.energy := by
  have level : ∀ lev, levelDecay A E D c k nucleus lev g = .ok (p, g') →
      Produced D c k p.Ex (p.emitted, p.nucleus) ∧ p.Ex = lev.energy := by
    intro lev h
    unfold levelDecay at h
    cases h1 : prepareProducts A E D c k nucleus lev.energy g with
    | error e => rw [h1] at h; simp at h
    | ok x =>
      rw [h1] at h
      simp only [Except.ok.injEq, Prod.mk.injEq] at h
      obtain ⟨rfl, -⟩ := h
      obtain ⟨x, g1⟩ := x
      exact ⟨products_ok h1, rfl⟩
  have cont : contDecay A E fuel D c k nucleus g = some (.ok (p, g')) →
      Produced D c k p.Ex (p.emitted, p.nucleus) := by
    intro h
    unfold contDecay at h
    cases h1 : sampleExf A E fuel D c k g with
    | none => rw [h1] at h; simp at h
    | some r =>
      rw [h1] at h
      cases r with
      | error e => simp at h
      | ok y =>
        obtain ⟨Exf, g1⟩ := y
        dsimp only at h
        cases h2 : sampleSpinParity E D c k Exf g1 with
        | error e => rw [h2] at h; simp at h
        | ok jp =>
          rw [h2] at h
          dsimp only at h
          cases h3 : prepareProducts A E D c k nucleus Exf jp.2 with
          | error e => rw [h3] at h; simp at h
          | ok x =>
            rw [h3] at h
            simp only [Option.some.injEq, Except.ok.injEq, Prod.mk.injEq] at h
            obtain ⟨rfl, -⟩ := h
            obtain ⟨x, g2⟩ := x
            exact products_ok h3
  unfold Kind.decay at h
  cases k with
  | fragLevel f lev =>
    simp only [Option.some.injEq] at h
    obtain ⟨a1, a2⟩ := level lev h
    refine ⟨a1, ?_⟩
    rintro l (hl | ⟨f', hl⟩) <;> cases hl
    exact a2
  | gamLevel lev =>
    simp only [Option.some.injEq] at h
    obtain ⟨a1, a2⟩ := level lev h
    refine ⟨a1, ?_⟩
    rintro l (hl | ⟨f', hl⟩) <;> cases hl
    exact a2
  | fragCont f Emin =>
    refine ⟨cont h, ?_⟩
    rintro l (hl | ⟨f', hl⟩) <;> cases hl
  | gamCont Emin =>
    refine ⟨cont h, ?_⟩
    rintro l (hl | ⟨f', hl⟩) <;> cases hl

theorem kindsTo_mem {D : Data} {n : Int} {ds : Option (Scheme ℝ)} (hs : D.scheme n = .ok ds) {max : ℝ}
    {lev : Level ℝ → Kind} {cont : ℝ → Kind} {k : Kind} (h : k ∈ kindsTo ds max lev cont) :
    (∃ l, Known D n l ∧ k = lev l) ∨ ∃ E, k = cont E := by
  unfold kindsTo at h
  rcases List.mem_append.1 h with h | h
  · left
    obtain ⟨l, hl, rfl⟩ := List.mem_map.1 h
    have hl := (List.takeWhile_sublist _).subset hl
    cases ds with
    | none => simp [levelsOf] at hl
    | some s => exact ⟨l.2, ⟨s, l.1, hs, hl⟩, rfl⟩
  · right
    split at h
    · exact ⟨_, List.mem_singleton.1 h⟩
    · simp at h

/-- One decay of a compound nucleus. -/
theorem hf_step {A : Arith} {E : Engine G} {fuel : Nat} {D : Data} {nucleus : Particle ℝ} {Ex : ℝ}
    {twoJ : Int} {P : Parity} {g g' : G} {p : Product} {b : Bool}
    (h : hfDecay A E fuel D nucleus Ex twoJ P g = some (.ok ((p, b), g'))) :
    Step D nucleus p.nucleus p.emitted ∧ Excited D p.nucleus p.Ex 0 ∧
      (b = false → ∃ lev, Known D p.nucleus.pdg lev ∧ lev.energy = p.Ex) := by
  unfold hfDecay at h
  cases h1 : build D nucleus Ex twoJ P with
  | error e => rw [h1] at h; simp at h
  | ok s =>
    rw [h1] at h
    dsimp only at h
    cases h2 : sampleExit E s g with
    | error e => rw [h2] at h; simp at h
    | ok y =>
      obtain ⟨x, g1⟩ := y
      rw [h2] at h
      dsimp only at h
      cases h3 : x.kind.decay A E fuel D (parent D nucleus Ex twoJ P) nucleus g1 with
      | none => rw [h3] at h; simp at h
      | some r =>
        rw [h3] at h
        cases r with
        | error e => simp at h
        | ok y =>
          simp only [Option.some.injEq, Except.ok.injEq, Prod.mk.injEq] at h
          obtain ⟨⟨rfl, rfl⟩, -⟩ := h
          obtain ⟨ds, c1, c2, c3⟩ := channels_kinds (build_ok h1)
          have hx : x.kind ∈ s.2.map (·.kind) := List.mem_map_of_mem (sampleExit_mem h2)
          rw [c2.kinds, List.map_nil, List.nil_append] at hx
          obtain ⟨d1, d2⟩ := kind_produced h3
          have hexc : Excited D y.1.nucleus y.1.Ex 0 := by
            obtain ⟨me, m, e1, e2, e3⟩ := d1.mass
            refine ⟨m - y.1.nucleus.charge * me, ⟨m, me, ?_, e1, rfl⟩, ?_⟩
            · rw [← e2]; exact congrArg (fun n => Mass.atomicMassPid D.mass n true) d1.nucleus
            · rw [show y.1.nucleus.mass = m - y.1.nucleus.charge * me + y.1.Ex from e3, sub_self, abs_zero]
          have hmass : ∃ m, Mass.atomicMassPid D.mass y.1.nucleus.pdg true = .ok (some m) := by
            obtain ⟨_, ⟨m, _, e1, -, -⟩, -⟩ := hexc
            exact ⟨m, e1⟩
          have hdis : ∀ lev, (x.kind = .gamLevel lev ∨ ∃ f, x.kind = .fragLevel f lev) →
              Known D (x.kind.final nucleus.pdg) lev →
              ∃ lev, Known D y.1.nucleus.pdg lev ∧ lev.energy = y.1.Ex := by
            intro lev hl hk
            refine ⟨lev, ?_, (d2 lev hl).symm⟩
            have := d1.nucleus
            dsimp only at this
            rw [this]
            exact hk
          rcases List.mem_append.1 hx with hx | hx
          · obtain ⟨f, hf, hx⟩ := List.mem_flatMap.1 hx
            have stepf : x.kind.emitted = f.pid → x.kind.final nucleus.pdg = remnant nucleus.pdg f.pid →
                (∃ S, Mass.separationEnergyPid D.mass nucleus.pdg f.pid true = .ok (some S)) →
                Step D nucleus y.1.nucleus y.1.emitted := by
              intro e1 e2 e3
              refine .fragment f hf ?_ ?_ ?_ ?_ e3 hmass
              · rw [← e1]; exact d1.emitted
              · rw [← e1]; exact d1.emitted_charge
              · rw [← e1]; exact d1.charge
              · rw [← e2]; exact d1.nucleus
            unfold fragKinds at hx
            rw [show (parent D nucleus Ex twoJ P).pdg = nucleus.pdg from rfl] at hx c3
            cases h4 : Mass.separationEnergyPid D.mass nucleus.pdg f.pid true with
            | error e => rw [h4] at hx; simp at hx
            | ok o =>
              obtain ⟨dsf, h5⟩ := c3 f hf
              rw [h4, h5] at hx
              cases o with
              | none => simp at hx
              | some S =>
                dsimp only at hx
                split at hx
                · simp at hx
                · rcases kindsTo_mem h5 hx with ⟨l, hl, hk⟩ | ⟨Em, hk⟩
                  · refine ⟨stepf (by rw [hk]; rfl) (by rw [hk]; rfl) ⟨S, h4⟩, hexc, fun _ => ?_⟩
                    exact hdis l (Or.inr ⟨_, hk⟩) (by rw [hk]; exact hl)
                  · refine ⟨stepf (by rw [hk]; rfl) (by rw [hk]; rfl) ⟨S, h4⟩, hexc, fun hb => ?_⟩
                    rw [hk] at hb
                    simp [Kind.continuum] at hb
          · have stepg : x.kind.emitted = 22 → x.kind.final nucleus.pdg = nucleus.pdg →
                Step D nucleus y.1.nucleus y.1.emitted := by
              intro e1 e2
              refine .gamma ?_ ?_ ?_ (fun _ => ?_)
              · rw [← e1]; exact d1.emitted
              · have := d1.emitted_charge
                rw [e1, show Pdg.charge 22 = .ok 0 by decide] at this
                simp only [Except.ok.injEq] at this
                exact this.symm
              · have := d1.charge
                rw [e1, show Pdg.getZ 22 = 0 by decide, sub_zero] at this
                exact this
              · rw [← e2]; exact d1.nucleus
            rcases kindsTo_mem c1 hx with ⟨l, hl, hk⟩ | ⟨Em, hk⟩
            · refine ⟨stepg (by rw [hk]; rfl) (by rw [hk]; rfl), hexc, fun _ => ?_⟩
              exact hdis l (Or.inl hk) (by rw [hk]; exact hl)
            · refine ⟨stepg (by rw [hk]; rfl) (by rw [hk]; rfl), hexc, fun hb => ?_⟩
              rw [hk] at hb
              simp [Kind.continuum] at hb

/-- How the loop of decays ends if it ends well; `N` makes energies nonnegative. -/
def LoopEnd (N : Prop) (D : Data) (c : Bool) (Ex : ℝ) (c' : Bool) (Ex' : ℝ) (re' : Particle ℝ)
    (ps : List (Particle ℝ)) : Prop :=
  (ps = [] ∧ c' = c ∧ Ex' = Ex ∧ ¬ (c = true ∧ Ex > cutoff)) ∨
  (ps ≠ [] ∧ Excited D re' Ex' 0 ∧ (N → 0 ≤ Ex') ∧
    ((c' = true ∧ Ex' ≤ cutoff) ∨ (c' = false ∧ ∃ lev, Known D re'.pdg lev ∧ lev.energy = Ex')))

theorem hfLoop_history {A : Arith} {E : Engine G} {fuel : Nat} {D : Data} (n : Nat) :
    ∀ {c : Bool} {Ex : ℝ} {twoJ : Int} {P : Parity} {ev ev' : Event ℝ} {g : G}
      {r : Res ((Bool × ℝ) × G)} {ej re : Particle ℝ} {rest : List (Particle ℝ)},
      ev.final = ej :: re :: rest →
      hfLoop A E fuel D n c Ex twoJ P ev g = some (ev', r) →
      ∃ re' ps, ev' = leave ev ej re' rest ps ∧ History D (Thrown A E D) re ps re' ∧
        ∀ c' Ex' g', r = .ok ((c', Ex'), g') → LoopEnd (E.Lawful ∧ SortedSchemes D) D c Ex c' Ex' re' ps := by
  induction n with
  | zero => intro c Ex twoJ P ev ev' g r ej re rest _ h; simp [hfLoop] at h
  | succ n ih =>
    intro c Ex twoJ P ev ev' g r ej re rest hev h
    unfold hfLoop at h
    by_cases hc : c = true ∧ Ex > cutoff
    · rw [if_pos hc, hev] at h
      simp only [List.getElem?_cons_succ, List.getElem?_cons_zero] at h
      cases h1 : hfDecay A E fuel D re Ex twoJ P g with
      | none => rw [h1] at h; simp at h
      | some y =>
        rw [h1] at h
        cases y with
        | error e =>
          simp only [Option.some.injEq, Prod.mk.injEq] at h
          obtain ⟨rfl, rfl⟩ := h
          exact ⟨re, [], (leave_nil hev).symm, .done re, by simp⟩
        | ok y =>
          obtain ⟨⟨p, b⟩, g1⟩ := y
          dsimp only at h
          obtain ⟨s1, s2, s3⟩ := hf_step h1
          obtain ⟨re', ps, e1, e2, e3⟩ := ih (emit_final hev p.nucleus p.emitted) h
          refine ⟨re', p.emitted :: ps, by rw [e1, leave_emit], .emit s1 (hf_thrown h1) e2, ?_⟩
          intro c' Ex' g' hr
          right
          refine ⟨by simp, ?_⟩
          rcases e3 c' Ex' g' hr with ⟨rfl, rfl, rfl, hb⟩ | ⟨-, h2⟩
          · cases e2
            refine ⟨s2, fun hN => ?_, ?_⟩
            · obtain ⟨-, -, -, -, -, h0, -⟩ := C52_decay_partial hN.1 hN.2 h1
              exact h0
            cases c' with
            | true => exact Or.inl ⟨rfl, by simpa using hb⟩
            | false => exact Or.inr ⟨rfl, s3 rfl⟩
          · exact h2
    · rw [if_neg hc] at h
      simp only [Option.some.injEq, Prod.mk.injEq] at h
      obtain ⟨rfl, rfl⟩ := h
      refine ⟨re, [], (leave_nil hev).symm, .done re, ?_⟩
      intro c' Ex' g' hr
      simp only [Except.ok.injEq, Prod.mk.injEq] at hr
      obtain ⟨⟨rfl, rfl⟩, -⟩ := hr
      exact Or.inl ⟨rfl, rfl, rfl, hc⟩

theorem History.append {D : Data} {R : Particle ℝ → Particle ℝ → Particle ℝ → Prop}
    {a b c : Particle ℝ} {ps qs : List (Particle ℝ)}
    (h : History D R a ps b) (h' : History D R b qs c) : History D R a (ps ++ qs) c := by
  induction h with
  | done => exact h'
  | emit s r _ ih => exact .emit s r (ih h')

/-- How the final gamma cascade ends if it ends well. -/
def GammaEnd (D : Data) (started : Bool) (Ex : ℝ) (re re' : Particle ℝ) (ps : List (Particle ℝ)) :
    Prop :=
  ∃ s a lev, D.scheme re.pdg = .ok (some s) ∧ closestLevel s Ex = .ok (some a) ∧
    levelAt s a = some lev ∧ (started = false → |Ex - lev.energy| ≤ tolerance) ∧
    CascadeEnd D s re.charge a re' ps

theorem finish_history {A : Arith} {E : Engine G} {fuel : Nat} {D : Data} {started : Bool} {Ex : ℝ}
    {ev ev' : Event ℝ} {g : G} {r : Res G} {ej re : Particle ℝ} {rest : List (Particle ℝ)}
    (hev : ev.final = ej :: re :: rest)
    (h : finishGammas A E fuel D started Ex ev g = some (ev', r)) :
    ∃ re' ps, ev' = leave ev ej re' rest ps ∧ History D (Thrown A E D) re ps re' ∧
      ∀ g', r = .ok g' → GammaEnd D started Ex re re' ps := by
  have stop : ∀ (e : Exc) (r : Res G), some (ev, (.error e : Res G)) = some (ev', r) →
      ∃ re' ps, ev' = leave ev ej re' rest ps ∧ History D (Thrown A E D) re ps re' ∧
        ∀ g', r = .ok g' → GammaEnd D started Ex re re' ps := by
    intro e r h
    simp only [Option.some.injEq, Prod.mk.injEq] at h
    obtain ⟨rfl, rfl⟩ := h
    exact ⟨re, [], (leave_nil hev).symm, .done re, by simp⟩
  unfold finishGammas at h
  rw [hev] at h
  simp only [List.getElem?_cons_succ, List.getElem?_cons_zero] at h
  cases h1 : D.scheme re.pdg with
  | error e => rw [h1] at h; exact stop _ _ h
  | ok ds =>
    rw [h1] at h
    cases ds with
    | none => exact stop _ _ h
    | some s =>
      dsimp only at h
      cases h2 : closestLevel s Ex with
      | error e => rw [h2] at h; exact stop _ _ h
      | ok o =>
        rw [h2] at h
        cases o with
        | none => exact stop _ _ h
        | some a =>
          dsimp only at h
          cases h3 : levelAt s a with
          | none => rw [h3] at h; exact stop _ _ h
          | some lev =>
            rw [h3] at h
            dsimp only at h
            by_cases h4 : started = false ∧ |Ex - lev.energy| > tolerance
            · rw [if_pos h4] at h; exact stop _ _ h
            rw [if_neg h4] at h
            obtain ⟨re', ps, e1, e2, e3⟩ := cascade_history fuel hev rfl (fun hf => (hf _ _ h1).symm) h
            refine ⟨re', ps, e1, e2, fun g' hg => ⟨s, a, lev, h1, h2, h3, fun hs => ?_, e3 g' hg⟩⟩
            by_contra hc
            exact h4 ⟨hs, not_le.1 hc⟩

/-- How a de-excitation ends if it ends well: by the loop of decays, or by a cascade after it. -/
def DecayEnd (A : Arith) (E : Engine G) (N : Prop) (D : Data) (ev : Event ℝ) (re re' : Particle ℝ) (ps : List (Particle ℝ)) : Prop :=
  ∃ (started c : Bool) (Ex : ℝ) (mid : Particle ℝ) (ps1 ps2 : List (Particle ℝ)), ps = ps1 ++ ps2 ∧
    History D (Thrown A E D) re ps1 mid ∧ History D (Thrown A E D) mid ps2 re' ∧
    (∃ ds threshold, D.scheme re.pdg = .ok ds ∧
      Mass.unboundThresholdPid D.mass (D.frags.map (·.pid)) re.pdg = .ok threshold ∧
      started = (decide (ev.Ex > threshold) || ds.isNone)) ∧
    LoopEnd N D started ev.Ex c Ex mid ps1 ∧
    ((c = true ∧ ps2 = []) ∨ (c = false ∧ GammaEnd D started Ex mid re' ps2))

theorem deexcite_history {A : Arith} {E : Engine G} {fuel : Nat} {D : Data} {ev ev' : Event ℝ} {g : G}
    {r : Res G} {ej re : Particle ℝ} {rest : List (Particle ℝ)} (hev : ev.final = ej :: re :: rest)
    (h : deexcite A E fuel D re.pdg ev g = some (ev', r)) :
    ∃ re' ps, ev' = leave ev ej re' rest ps ∧ History D (Thrown A E D) re ps re' ∧
      ∀ g', r = .ok g' → DecayEnd A E (E.Lawful ∧ SortedSchemes D) D ev re re' ps := by
  have stop : ∀ (e : Exc) (r : Res G), some (ev, (.error e : Res G)) = some (ev', r) →
      ∃ re' ps, ev' = leave ev ej re' rest ps ∧ History D (Thrown A E D) re ps re' ∧
        ∀ g', r = .ok g' → DecayEnd A E (E.Lawful ∧ SortedSchemes D) D ev re re' ps := by
    intro e r h
    simp only [Option.some.injEq, Prod.mk.injEq] at h
    obtain ⟨rfl, rfl⟩ := h
    exact ⟨re, [], (leave_nil hev).symm, .done re, by simp⟩
  unfold deexcite at h
  cases h1 : D.scheme re.pdg with
  | error e => rw [h1] at h; exact stop _ _ h
  | ok ds =>
    rw [h1] at h
    dsimp only at h
    cases h2 : Mass.unboundThresholdPid D.mass (D.frags.map (·.pid)) re.pdg with
    | error e => rw [h2] at h; exact stop _ _ h
    | ok threshold =>
      rw [h2] at h
      dsimp only at h
      cases h3 : hfLoop A E fuel D fuel (decide (ev.Ex > threshold) || ds.isNone) ev.Ex ev.twoJ ev.parity
          ev g with
      | none => rw [h3] at h; simp at h
      | some y =>
        obtain ⟨ev1, r1⟩ := y
        obtain ⟨mid, ps1, e1, e2, e3⟩ := hfLoop_history fuel hev h3
        rw [h3] at h
        cases r1 with
        | error e =>
          simp only [Option.some.injEq, Prod.mk.injEq] at h
          obtain ⟨rfl, rfl⟩ := h
          exact ⟨mid, ps1, e1, e2, by simp⟩
        | ok z =>
          obtain ⟨⟨c, Ex⟩, g1⟩ := z
          dsimp only at h
          have hl := e3 c Ex g1 rfl
          by_cases hc : c = false
          · rw [if_pos hc] at h
            have hev1 : ev1.final = ej :: mid :: (rest ++ ps1) := by rw [e1]
            obtain ⟨re', ps2, f1, f2, f3⟩ := finish_history hev1 h
            refine ⟨re', ps1 ++ ps2, ?_, e2.append f2, fun g' hg => ?_⟩
            · rw [f1, e1]
              simp [leave]
            · exact ⟨_, c, Ex, mid, ps1, ps2, rfl, e2, f2, ⟨ds, threshold, h1, h2, rfl⟩, hl,
                Or.inr ⟨hc, f3 g' hg⟩⟩
          · rw [if_neg hc] at h
            simp only [Option.some.injEq, Prod.mk.injEq] at h
            obtain ⟨rfl, rfl⟩ := h
            refine ⟨mid, ps1, e1, e2, fun g' _ => ?_⟩
            exact ⟨_, c, Ex, mid, ps1, [], by simp, e2, .done mid, ⟨ds, threshold, h1, h2, rfl⟩, hl,
              Or.inl ⟨by simpa using hc, rfl⟩⟩

end Marley.Decay
