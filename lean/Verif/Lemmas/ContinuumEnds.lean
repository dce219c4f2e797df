import Verif.Spec.ContinuumEnds
import Verif.Lemmas.Ends
import Verif.Lemmas.Decayer
import Verif.Lemmas.Discrete
import Verif.Props.Decayer

/-! Decays of compound nuclei that end. -/

set_option autoImplicit false

namespace Marley.Decay
open Marley Marley.Props Marley.Sampling

variable {G : Type} {E : Engine G} {g : G} {D : Data}

/-! ### Sampling energies -/

theorem bisect_mono {cdf : ℝ → ℝ} {norm p tol : ℝ} {n m : Nat} (h : n ≤ m) {a b x : ℝ}
    (e : bisect cdf norm p tol n a b = some x) : bisect cdf norm p tol m a b = some x := by
  induction n generalizing a b m with
  | zero => simp [bisect] at e
  | succ n ih =>
    obtain ⟨m, rfl⟩ : ∃ k, m = k + 1 := ⟨m - 1, by omega⟩
    rw [bisect] at e ⊢
    dsimp only at e ⊢
    split_ifs at e ⊢
    · exact e
    · exact ih (by omega) e
    · exact ih (by omega) e
    · exact e

/-- The bisection does not come close to the upper end. -/
theorem bisect_below {cdf : ℝ → ℝ} {norm p tol : ℝ} (ht : 0 < tol) (n : Nat) {a b x : ℝ}
    (h : tol / 2 < b - a) (e : bisect cdf norm p tol n a b = some x) : x ≤ b - tol / 4 := by
  induction n generalizing a b with
  | zero => simp [bisect] at e
  | succ n ih =>
    rw [bisect] at e
    dsimp only at e
    split_ifs at e with h1 h2 h3
    · cases e; linarith
    · have := (bisect_range n (by linarith) e).2; linarith
    · exact ih (by linarith) e
    · cases e; linarith

theorem inverse_ends (A : Arith) (cdf : ℝ → ℝ) (xmin xmax : ℝ) {tol : ℝ} (ht : 0 < tol) (g : G) :
    Ends fun n => inverseTransform A E n cdf xmin xmax tol g := by
  obtain ⟨n, hn⟩ := C22_bound_exists xmin xmax ht
  unfold inverseTransform
  dsimp only
  split_ifs
  · exact .of _
  · exact .of _
  · obtain ⟨x, hx⟩ := bisect_some cdf (cdf xmax) (uniform A E 0 1 true g).1 tol n xmin xmax hn
    exact ⟨n + 1, (x, (uniform A E 0 1 true g).2), fun m hm => by
      dsimp only; rw [bisect_mono hm hx]; rfl⟩

theorem inverse_below {cdf : ℝ → ℝ} {xmin xmax tol : ℝ} (ht : 0 < tol)
    (hu : (E.draw g).1 < 1) {n : Nat} {x : ℝ} {g' : G} (hle : xmin ≤ xmax)
    (e : inverseTransform exact E n cdf xmin xmax tol g = some (x, g')) :
    xmin ≤ x ∧ x ≤ xmax ∧ (tol < xmax - xmin → x ≤ xmax - tol / 4) ∧ g' = (E.draw g).2 := by
  unfold inverseTransform at e
  simp only [uniform_exact, sub_zero, mul_one, add_zero] at e
  split_ifs at e with h1 h2
  · cases e
    exact ⟨le_rfl, hle, fun h => by linarith, rfl⟩
  · exact absurd h2 hu.ne
  · simp only [Option.map_eq_some_iff, Prod.mk.injEq] at e
    obtain ⟨y, hy, rfl, rfl⟩ := e
    obtain ⟨k1, k2⟩ := bisect_range n hle hy
    exact ⟨k1, k2, fun h => bisect_below ht n (by linarith) hy, rfl⟩

theorem sampleExf_ends (A : Arith) (D : Data) (c : Parent) (k : Kind) (g : G) :
    Ends fun n => sampleExf A E n D c k g := by
  unfold sampleExf
  cases k.bounds D c with
  | error e => exact .of _
  | ok v =>
    obtain ⟨Emin, Emax⟩ := v
    dsimp only
    cases Cheb.make (fun x => (k.diff D c x).map (·.1)) Emin Emax 64 with
    | error e => exact .of _
    | ok pdf =>
      obtain ⟨N, v, hN⟩ := inverse_ends (E := E) A (fun x => (pdf.cdf.evaluate x).getD 0) Emin Emax
        (tol := 1e-12) (by norm_num) g
      exact ⟨N, .ok v, fun n hn => by
        have := hN n hn
        dsimp only at this ⊢
        rw [this]; rfl⟩

theorem contDecay_ends (A : Arith) (D : Data) (c : Parent) (k : Kind) (nucleus : Particle ℝ) (g : G) :
    Ends fun n => contDecay A E n D c k nucleus g := by
  unfold contDecay
  obtain ⟨N, v, hN⟩ := sampleExf_ends (E := E) A D c k g
  dsimp only at hN
  cases v with
  | error e => exact ⟨N, .error e, fun n hn => by dsimp only; rw [hN n hn]⟩
  | ok v =>
    obtain ⟨Exf, g1⟩ := v
    cases h2 : sampleSpinParity E D c k Exf g1 with
    | error e => exact ⟨N, .error e, fun n hn => by dsimp only; rw [hN n hn]; dsimp only; rw [h2]⟩
    | ok v =>
      obtain ⟨jp, g2⟩ := v
      cases h3 : prepareProducts A E D c k nucleus Exf g2 with
      | error e =>
        exact ⟨N, .error e, fun n hn => by
          dsimp only; rw [hN n hn]; dsimp only; rw [h2]; dsimp only; rw [h3]⟩
      | ok v =>
        obtain ⟨p, g3⟩ := v
        exact ⟨N, .ok (⟨Exf, jp.1, jp.2, p.1, p.2⟩, g3), fun n hn => by
          dsimp only; rw [hN n hn]; dsimp only; rw [h2]; dsimp only; rw [h3]⟩

theorem kind_ends (A : Arith) (D : Data) (c : Parent) (nucleus : Particle ℝ) (k : Kind) (g : G) :
    Ends fun n => k.decay A E n D c nucleus g := by
  cases k with
  | fragLevel f lev => exact .of _
  | gamLevel lev => exact .of _
  | fragCont f r => exact contDecay_ends A D c _ nucleus g
  | gamCont r => exact contDecay_ends A D c _ nucleus g

/-- A single decay ends. -/
theorem hfDecay_ends (A : Arith) (D : Data) (nucleus : Particle ℝ) (Ex : ℝ) (twoJ : Int) (P : Parity)
    (g : G) : Ends fun n => hfDecay A E n D nucleus Ex twoJ P g := by
  unfold hfDecay
  cases build D nucleus Ex twoJ P with
  | error e => exact .of _
  | ok s =>
    dsimp only
    cases sampleExit E s g with
    | error e => exact .of _
    | ok v =>
      obtain ⟨x, g1⟩ := v
      obtain ⟨N, r, hN⟩ := kind_ends (E := E) A D (parent D nucleus Ex twoJ P) nucleus x.kind g1
      dsimp only at hN ⊢
      cases r with
      | error e => exact ⟨N, .error e, fun n hn => by dsimp only; rw [hN n hn]⟩
      | ok r =>
        obtain ⟨p, g2⟩ := r
        exact ⟨N, .ok ((p, x.kind.continuum), g2), fun n hn => by dsimp only; rw [hN n hn]⟩

/-! ### What a decay does -/

theorem pickFrom_takes {w : List ℝ} {i : Nat} {g' : G} (h : pickFrom E w g = .ok (i, g')) :
    ∃ k ≤ 1, g' = after E k g := by
  unfold pickFrom at h
  split_ifs at h
  · cases h; exact ⟨0, by omega, rfl⟩
  · cases hp : pick w (E.draw g).1 with
    | error e => rw [hp] at h; cases h
    | ok j => rw [hp] at h; cases h; exact ⟨1, le_rfl, rfl⟩

theorem products_takes {A : Arith} {c : Parent} {k : Kind} {nucleus : Particle ℝ} {Exf : ℝ}
    {p : Particle ℝ × Particle ℝ} {g' : G} (h : prepareProducts A E D c k nucleus Exf g = .ok (p, g')) :
    g' = after E 2 g := by
  unfold prepareProducts at h
  repeat' split at h
  all_goals first
    | (cases h; done)
    | skip
  dsimp only at h
  split at h
  · cases h
  · cases h; rfl

theorem spin_takes {c : Parent} {k : Kind} {Exf : ℝ} {jp : Int × Parity} {g' : G}
    (h : sampleSpinParity E D c k Exf g = .ok (jp, g')) : ∃ n ≤ 1, g' = after E n g := by
  unfold sampleSpinParity at h
  split at h
  · cases h
  · split_ifs at h
    split at h
    · cases h
    · rename_i hp
      split at h
      · cases h
      · cases h
        exact pickFrom_takes hp

theorem exit_parts {s : Channels} {x : Exit} {g1 : G} (h : sampleExit E s g = .ok (x, g1)) :
    0 < s.1 ∧ ∃ i, pickFrom E (s.2.map (·.width)) g = .ok (i, g1) ∧ s.2[i]? = some x := by
  unfold sampleExit at h
  split_ifs at h with h0
  refine ⟨not_le.1 h0, ?_⟩
  split at h
  · cases h
  · rename_i i g2 hp
    split at h
    · cases h
    · rename_i y hy
      cases h
      exact ⟨i, hp, hy⟩

theorem bounds_gam {c : Parent} {Emin a b : ℝ} (h : (Kind.gamCont Emin).bounds D c = .ok (a, b)) :
    a = Emin ∧ b = c.Ex := by
  simp only [Kind.bounds, Except.ok.injEq, Prod.mk.injEq] at h
  exact ⟨h.1.symm, h.2.symm⟩

/-- A decay: the channel chosen, the numbers taken, and the energy left after a gamma ray to the
continuum. -/
theorem hf_parts {n : Nat} {nucleus : Particle ℝ} {Ex : ℝ} {twoJ : Int} {P : Parity} {p : Product}
    {b : Bool} {g' : G} (hin : ∀ k, number E k g ∈ Set.Ico (0 : ℝ) 1)
    (h : hfDecay exact E n D nucleus Ex twoJ P g = some (.ok ((p, b), g'))) :
    ∃ s i x g1, build D nucleus Ex twoJ P = .ok s ∧ 0 < s.1 ∧
      pickFrom E (s.2.map (·.width)) g = .ok (i, g1) ∧ s.2[i]? = some x ∧ b = x.kind.continuum ∧
      p.nucleus.pdg = x.kind.final nucleus.pdg ∧ (∃ k, 1 ≤ k ∧ k ≤ 5 ∧ g' = after E k g) ∧
      ∀ Emin, x.kind = .gamCont Emin → Emin < Ex → p.Ex ≤ Ex ∧ (1e-12 < Ex - Emin → p.Ex ≤ Ex - 1e-12 / 4) := by
  unfold hfDecay at h
  cases h1 : build D nucleus Ex twoJ P with
  | error e => rw [h1] at h; simp at h
  | ok s =>
    rw [h1] at h
    dsimp only at h
    cases h2 : sampleExit E s g with
    | error e => rw [h2] at h; simp at h
    | ok v =>
      obtain ⟨x, g1⟩ := v
      rw [h2] at h
      dsimp only at h
      cases h3 : x.kind.decay exact E n D (parent D nucleus Ex twoJ P) nucleus g1 with
      | none => rw [h3] at h; simp at h
      | some y =>
        rw [h3] at h
        cases y with
        | error e => simp at h
        | ok y =>
          obtain ⟨q, g2⟩ := y
          simp only [Option.some.injEq, Except.ok.injEq, Prod.mk.injEq] at h
          obtain ⟨⟨rfl, rfl⟩, rfl⟩ := h
          obtain ⟨h0, i, hp, hx⟩ := exit_parts h2
          obtain ⟨k0, hk0, rfl⟩ := pickFrom_takes hp
          have hpdg : q.nucleus.pdg = x.kind.final nucleus.pdg := (kind_produced h3).1.nucleus
          have level : ∀ lev, levelDecay exact E D (parent D nucleus Ex twoJ P) x.kind nucleus lev
              (after E k0 g) = .ok (q, g2) → g2 = after E 2 (after E k0 g) := by
            intro lev hl
            unfold levelDecay at hl
            split at hl
            · cases hl
            · rename_i hq; cases hl; exact products_takes hq
          have cont : contDecay exact E n D (parent D nucleus Ex twoJ P) x.kind nucleus (after E k0 g)
              = some (.ok (q, g2)) → (∃ k, k ≤ 1 ∧ g2 = after E 2 (after E k (after E 1 (after E k0 g)))) ∧
              ∀ Emin, x.kind = .gamCont Emin → Emin < Ex → q.Ex ≤ Ex ∧
                (1e-12 < Ex - Emin → q.Ex ≤ Ex - 1e-12 / 4) := by
            intro hc
            unfold contDecay at hc
            cases c1 : sampleExf exact E n D (parent D nucleus Ex twoJ P) x.kind (after E k0 g) with
            | none => rw [c1] at hc; simp at hc
            | some v =>
              rw [c1] at hc
              cases v with
              | error e => simp at hc
              | ok v =>
                obtain ⟨Exf, g3⟩ := v
                dsimp only at hc
                have hg3 : g3 = after E 1 (after E k0 g) ∧
                    ∀ Emin, x.kind = .gamCont Emin → Emin < Ex → Exf ≤ Ex ∧
                      (1e-12 < Ex - Emin → Exf ≤ Ex - 1e-12 / 4) := by
                  unfold sampleExf at c1
                  split at c1
                  · cases c1
                  · rename_i lo hi hb
                    split at c1
                    · cases c1
                    · simp only [Option.map_eq_some_iff, Except.ok.injEq] at c1
                      obtain ⟨y, hy, e⟩ := c1
                      have hu : (E.draw (after E k0 g)).1 < 1 := (hin k0).2
                      rw [e] at hy
                      refine ⟨?_, fun Emin hk hlt => ?_⟩
                      · unfold inverseTransform at hy
                        simp only [uniform_exact] at hy
                        split_ifs at hy
                        · cases hy; rfl
                        · cases hy; rfl
                        · simp only [Option.map_eq_some_iff, Prod.mk.injEq] at hy
                          obtain ⟨z, -, -, rfl⟩ := hy
                          rfl
                      · rw [hk] at hb
                        obtain ⟨e1, e2⟩ := bounds_gam hb
                        have e2 : hi = Ex := e2
                        rw [e1, e2] at hy
                        obtain ⟨-, i2, i3, -⟩ := inverse_below (by norm_num) hu hlt.le hy
                        exact ⟨i2, i3⟩
                cases c2 : sampleSpinParity E D (parent D nucleus Ex twoJ P) x.kind Exf g3 with
                | error e => rw [c2] at hc; simp at hc
                | ok jp =>
                  obtain ⟨jp, g4⟩ := jp
                  rw [c2] at hc
                  dsimp only at hc
                  cases c3 : prepareProducts exact E D (parent D nucleus Ex twoJ P) x.kind nucleus Exf g4 with
                  | error e => rw [c3] at hc; simp at hc
                  | ok y =>
                    obtain ⟨y, g5⟩ := y
                    rw [c3] at hc
                    simp only [Option.some.injEq, Except.ok.injEq, Prod.mk.injEq] at hc
                    obtain ⟨rfl, rfl⟩ := hc
                    obtain ⟨k, hk, rfl⟩ := spin_takes c2
                    refine ⟨⟨k, hk, ?_⟩, hg3.2⟩
                    rw [products_takes c3, hg3.1]
          have short : g2 = after E 2 (after E k0 g) → ∃ k, 1 ≤ k ∧ k ≤ 5 ∧ g2 = after E k g := by
            rintro rfl
            exact ⟨k0 + 2, by omega, by omega, by rw [after_add]⟩
          have long : (∃ k, k ≤ 1 ∧ g2 = after E 2 (after E k (after E 1 (after E k0 g)))) →
              ∃ k, 1 ≤ k ∧ k ≤ 5 ∧ g2 = after E k g := by
            rintro ⟨k, hk, rfl⟩
            exact ⟨k0 + (1 + (k + 2)), by omega, by omega, by rw [after_add, after_add, after_add]⟩
          refine ⟨s, i, x, _, rfl, h0, hp, hx, rfl, hpdg, ?_⟩
          unfold Kind.decay at h3
          generalize x.kind = kd at *
          cases kd with
          | fragLevel f lev =>
            simp only [Option.some.injEq] at h3
            exact ⟨short (level lev h3), fun Emin hk => by cases hk⟩
          | gamLevel lev =>
            simp only [Option.some.injEq] at h3
            exact ⟨short (level lev h3), fun Emin hk => by cases hk⟩
          | fragCont f r =>
            exact ⟨long (cont h3).1, (cont h3).2⟩
          | gamCont r => exact ⟨long (cont h3).1, (cont h3).2⟩

/-! ### Which channel -/

theorem frag_kind {c : Parent} {f : Structure.Fragment} {k : Kind} (h : k ∈ fragKinds D c f) :
    ((∃ l, k = .fragLevel f.pid l) ∨ ∃ e, k = .fragCont f.pid e) ∧
      ∃ S, Mass.separationEnergyPid D.mass c.pdg f.pid true = .ok (some S) := by
  unfold fragKinds at h
  split at h
  · rename_i Sa ds h1 h2
    split_ifs at h
    · simp at h
    · refine ⟨?_, Sa, h1⟩
      rcases kindsTo_mem h2 h with ⟨l, -, rfl⟩ | ⟨e, rfl⟩
      · exact Or.inl ⟨l, rfl⟩
      · exact Or.inr ⟨e, rfl⟩
  · simp at h

/-- The channels: those that are not gamma rays to the continuum, and at the end at most one that is. -/
theorem build_kinds {nucleus : Particle ℝ} {Ex : ℝ} {twoJ : Int} {P : Parity} {s : Channels}
    (h : build D nucleus Ex twoJ P = .ok s) :
    s.1 = (s.2.map (·.width)).sum ∧ ∃ ds, D.scheme nucleus.pdg = .ok ds ∧
    ∃ pre post, s.2.map (·.kind) = pre ++ post ∧
      (∀ k ∈ pre, (∃ f ∈ D.frags, ((∃ l, k = .fragLevel f.pid l) ∨ ∃ e, k = .fragCont f.pid e) ∧
        ∃ S, Mass.separationEnergyPid D.mass nucleus.pdg f.pid true = .ok (some S)) ∨ ∃ l, k = .gamLevel l) ∧
      post = if Ex > contMin ds then [.gamCont (contMin ds)] else [] := by
  obtain ⟨ds, h1, h2, -⟩ := channels_kinds (build_ok h)
  refine ⟨h2.total (by simp), ds, h1, D.frags.flatMap (fragKinds D (parent D nucleus Ex twoJ P)) ++
    ((levelsOf ds).takeWhile (fun l => decide (l.2.energy < Ex))).map (fun l => .gamLevel l.2), _, ?_, ?_, rfl⟩
  · rw [h2.kinds, List.map_nil, List.nil_append, List.append_assoc]
    rfl
  · intro k hk
    rcases List.mem_append.1 hk with hk | hk
    · obtain ⟨f, hf, hk⟩ := List.mem_flatMap.1 hk
      exact Or.inl ⟨f, hf, frag_kind hk⟩
    · obtain ⟨l, -, rfl⟩ := List.mem_map.1 hk
      exact Or.inr ⟨l.2, rfl⟩

/-- If a small number chooses the channel, it is not the emission of a gamma ray to the continuum. -/
theorem not_gamCont {nucleus : Particle ℝ} {Ex : ℝ} {twoJ : Int} {P : Parity} {s : Channels}
    (h : build D nucleus Ex twoJ P = .ok s) (h0 : 0 < s.1) {δ : ℝ} (hδ : 0 < δ)
    (hs : δ * s.1 ≤ otherWidth s) (hu : number E 0 g ∈ Set.Ioo 0 δ) (hu1 : number E 0 g < 1) {i : Nat}
    {x : Exit} {g1 : G} (hp : pickFrom E (s.2.map (·.width)) g = .ok (i, g1)) (hx : s.2[i]? = some x)
    (Emin : ℝ) : x.kind ≠ .gamCont Emin := by
  intro hk
  obtain ⟨ht, ds, -, pre, post, e, hpre, hpost⟩ := build_kinds h
  have hik : (pre ++ post)[i]? = some (.gamCont Emin) := by
    rw [← e, List.getElem?_map, hx]
    simp [hk]
  have hi : pre.length ≤ i := by
    by_contra hc
    rw [List.getElem?_append_left (by omega)] at hik
    rcases hpre _ (List.mem_of_getElem? hik) with ⟨f, -, (⟨l, hl⟩ | ⟨l, hl⟩), -⟩ | ⟨l, hl⟩ <;> cases hl
  rw [List.getElem?_append_right hi] at hik
  have hi2 : i = pre.length := by
    have := (List.getElem?_eq_some_iff.1 hik).1
    have : post.length ≤ 1 := by rw [hpost]; split_ifs <;> simp
    omega
  have hother : otherWidth s = ((s.2.take i).map (·.width)).sum := by
    unfold otherWidth
    have e1 : (s.2.take i).map (·.kind) = pre := by
      rw [List.map_take, e, hi2, List.take_left']
      rfl
    have e2 : (s.2.drop i).map (·.kind) = post := by
      rw [List.map_drop, e, hi2, List.drop_left']
      rfl
    have f1 : (s.2.take i).filter (·.kind.other)
        = s.2.take i := by
      rw [List.filter_eq_self]
      intro y hy
      have : y.kind ∈ pre := by rw [← e1]; exact List.mem_map_of_mem hy
      rcases hpre _ this with ⟨f, -, (⟨l, hl⟩ | ⟨l, hl⟩), -⟩ | ⟨l, hl⟩ <;> rw [hl] <;> rfl
    have f2 : (s.2.drop i).filter (·.kind.other) = [] := by
      rw [List.filter_eq_nil_iff]
      intro y hy
      have : y.kind ∈ post := by rw [← e2]; exact List.mem_map_of_mem hy
      rw [hpost] at this
      split_ifs at this
      · rw [List.mem_singleton.1 this]; simp [Kind.other]
      · simp at this
    conv_lhs => rw [← List.take_append_drop i s.2]
    rw [List.filter_append, f1, f2, List.append_nil]
  rw [hother] at hs
  have hpos : 0 < ((s.2.take i).map (·.width)).sum := lt_of_lt_of_le (mul_pos hδ h0) hs
  have hlen : ¬ (s.2.map (·.width)).length < 2 := by
    intro hl
    have hl0 := (List.getElem?_eq_some_iff.1 hx).1
    rw [List.length_map] at hl
    have : i = 0 := by omega
    rw [this] at hpos
    simp at hpos
  unfold pickFrom at hp
  rw [if_neg hlen] at hp
  cases hq : pick (s.2.map (·.width)) (E.draw g).1 with
  | error e => rw [hq] at hp; cases hp
  | ok j =>
    rw [hq] at hp
    simp only [Except.ok.injEq, Prod.mk.injEq] at hp
    obtain ⟨rfl, -⟩ := hp
    have hw : ∀ y ∈ s.2.map (·.width), 0 ≤ y := by
      by_contra hc
      push Not at hc
      obtain ⟨y, hy, hlt⟩ := hc
      unfold pick at hq
      rw [if_neg hlen, if_pos (Or.inl (List.any_eq_true.2 ⟨y, hy, by simpa using hlt⟩))] at hq
      cases hq
    have := ((pick_iff hw (by rw [← ht]; exact h0) hu.1 hu1.le j).1 hq).2.1
    rw [← List.map_take, ← ht] at this
    have h3 : number E 0 g * s.1 ≤ δ * s.1 := mul_le_mul_of_nonneg_right hu.2.le h0.le
    have h4 : ((s.2.take j).map (·.width)).sum < number E 0 g * s.1 := this
    linarith

/-! ### Nuclei get lighter -/

theorem lookup_none (hD : Orderly D) {Z A : Int} (h1 : -9 ≤ A) (h2 : A ≤ 0) :
    Mass.lookup D.mass Z A true = .ok (none, false) := by
  unfold Mass.lookup
  rw [hD.masses Z A h1 h2]
  simp [Mass.liquidDropMass, Mass.liquidDropExcess, h2]

theorem remnant_lighter (hD : Orderly D) {pdg : Int} {f : Structure.Fragment} (hf : f ∈ D.frags) {S : ℝ}
    (h : Mass.separationEnergyPid D.mass pdg f.pid true = .ok (some S)) :
    (Pdg.getA (remnant pdg f.pid)).toNat < (Pdg.getA pdg).toNat := by
  obtain ⟨f1, f2⟩ := hD.fragments f hf
  obtain ⟨a1, a2⟩ := getA_range pdg
  have hpos : 0 < Pdg.getA pdg - Pdg.getA f.pid := by
    by_contra hc
    have hl := lookup_none hD (Z := Pdg.getZ pdg - Pdg.getZ f.pid)
      (A := Pdg.getA pdg - Pdg.getA f.pid) (by omega) (by omega)
    unfold Mass.separationEnergyPid Mass.separationEnergy at h
    dsimp only at h
    rw [hl] at h
    repeat' split at h
    all_goals first
      | (cases h; done)
      | skip
    all_goals
      rename_i h4 k1 k2
      cases h4
      simp at h
  have key : Pdg.getA (remnant pdg f.pid) ≤ Pdg.getA pdg - Pdg.getA f.pid := by
    unfold remnant Pdg.nucleusPid
    have hlt : Pdg.getA pdg - Pdg.getA f.pid < 1000 := by omega
    generalize Pdg.getA pdg - Pdg.getA f.pid = a at hpos hlt
    generalize Pdg.getZ pdg - Pdg.getZ f.pid = z
    simp only [Pdg.getA, Pdg.PROTON, Pdg.NEUTRON]
    split_ifs <;> first
      | omega
      | (rw [Int.tmod_eq_emod_of_nonneg (by omega), Int.tdiv_eq_ediv_of_nonneg (by omega)]; omega)
  omega

/-! ### The loop -/

/-- The loop of decays, from any state of it. -/
def LoopEnds (E : Engine G) (D : Data) (c : Bool) (Ex : ℝ) (twoJ : Int) (P : Parity) (ev : Event ℝ)
    (g : G) : Prop :=
  ∃ N r, ∀ n m, N ≤ n → N ≤ m → hfLoop exact E n D m c Ex twoJ P ev g = some r

theorem loop_stops {c : Bool} {Ex : ℝ} (h : ¬ (c = true ∧ Ex > cutoff)) (twoJ : Int) (P : Parity)
    (ev : Event ℝ) (g : G) : LoopEnds E D c Ex twoJ P ev g := by
  refine ⟨1, (ev, .ok ((c, Ex), g)), fun n m _ hm => ?_⟩
  obtain ⟨m, rfl⟩ : ∃ k, m = k + 1 := ⟨m - 1, by omega⟩
  rw [hfLoop, if_neg h]

theorem final_two {ev : Event ℝ} {re : Particle ℝ} (h : ev.final[1]? = some re) (nuc em : Particle ℝ) :
    (Scheme.emit ev nuc em).final[1]? = some nuc := by
  match hf : ev.final, h with
  | ej :: re' :: rest, h =>
    rw [emit_final hf]
    rfl

/-- One pass: the loop ends if it does so after every decay that can come. -/
theorem loop_step {Ex : ℝ} {twoJ : Int} {P : Parity} {ev : Event ℝ} {re : Particle ℝ}
    (hre : ev.final[1]? = some re)
    (h : ∀ n p b g', hfDecay exact E n D re Ex twoJ P g = some (.ok ((p, b), g')) →
      LoopEnds E D b p.Ex p.twoJ p.P (Scheme.emit ev p.nucleus p.emitted) g') (c : Bool) :
    LoopEnds E D c Ex twoJ P ev g := by
  by_cases hc : c = true ∧ Ex > cutoff
  · obtain ⟨N, v, hN⟩ := hfDecay_ends (E := E) exact D re Ex twoJ P g
    dsimp only at hN
    cases v with
    | error e =>
      refine ⟨max N 1, (ev, .error e), fun n m hn hm => ?_⟩
      obtain ⟨m, rfl⟩ : ∃ k, m = k + 1 := ⟨m - 1, by have := le_of_max_le_right hm; omega⟩
      rw [hfLoop, if_pos hc, hre]
      dsimp only
      rw [hN n (le_of_max_le_left hn)]
    | ok v =>
      obtain ⟨⟨p, b⟩, g'⟩ := v
      obtain ⟨N', r, hN'⟩ := h N p b g' (hN N le_rfl)
      refine ⟨max N (N' + 1), r, fun n m hn hm => ?_⟩
      have hn1 := le_of_max_le_left hn
      have hn2 := le_of_max_le_right hn
      have hm2 := le_of_max_le_right hm
      obtain ⟨m, rfl⟩ : ∃ k, m = k + 1 := ⟨m - 1, by omega⟩
      rw [hfLoop, if_pos hc, hre]
      dsimp only
      rw [hN n hn1]
      exact hN' n m (by omega) (by omega)
  · exact loop_stops hc twoJ P ev g

theorem loop_ends (hD : Orderly D) (a : Nat) :
    ∀ (c : Bool) (Ex : ℝ) (twoJ : Int) (P : Parity) (ev : Event ℝ) (re : Particle ℝ) (g : G),
      ev.final[1]? = some re → (Pdg.getA re.pdg).toNat = a → Often E g →
      LoopEnds E D c Ex twoJ P ev g := by
  induction a using Nat.strong_induction_on with
  | _ a ih =>
  intro c Ex twoJ P ev re g hre ha ho
  -- what remains after a decay: either settled, or a gamma ray to the continuum
  have step : ∀ (re : Particle ℝ) (Ex : ℝ) (twoJ : Int) (P : Parity) (ev : Event ℝ) (g : G),
      ev.final[1]? = some re → (Pdg.getA re.pdg).toNat = a → Often E g →
      ∀ n p b g', hfDecay exact E n D re Ex twoJ P g = some (.ok ((p, b), g')) →
        LoopEnds E D b p.Ex p.twoJ p.P (Scheme.emit ev p.nucleus p.emitted) g' ∨
        ∃ ds s i x g1, D.scheme re.pdg = .ok ds ∧ build D re Ex twoJ P = .ok s ∧ 0 < s.1 ∧
          pickFrom E (s.2.map (·.width)) g = .ok (i, g1) ∧ s.2[i]? = some x ∧
          x.kind = .gamCont (contMin ds) ∧ contMin ds < Ex ∧ p.nucleus.pdg = re.pdg ∧
          (∃ k, 1 ≤ k ∧ k ≤ 5 ∧ g' = after E k g) ∧ p.Ex ≤ Ex ∧
          (1e-12 < Ex - contMin ds → p.Ex ≤ Ex - 1e-12 / 4) := by
    intro re Ex twoJ P ev g hre ha ho n p b g' h
    obtain ⟨s, i, x, g1, h1, h2, h3, h4, h5, h6, ⟨k, k1, k2, k3⟩, h8⟩ := hf_parts ho.inside h
    obtain ⟨ht, ds, hds, pre, post, e, hpre, hpost⟩ := build_kinds h1
    have hx : x.kind ∈ pre ++ post := by
      rw [← e]; exact List.mem_map_of_mem (List.mem_of_getElem? h4)
    rcases List.mem_append.1 hx with hx | hx
    · left
      rcases hpre _ hx with ⟨f, hf, hk, S, hS⟩ | ⟨l, hk⟩
      · have hfin : x.kind.final re.pdg = remnant re.pdg f.pid := by
          rcases hk with ⟨l, hk⟩ | ⟨l, hk⟩ <;> rw [hk] <;> rfl
        refine ih _ ?_ b p.Ex p.twoJ p.P _ p.nucleus g' (final_two hre _ _) rfl (by
          rw [k3]; exact ho.after k)
        rw [h6, hfin, ← ha]
        exact remnant_lighter hD hf hS
      · exact loop_stops (by rw [h5, hk]; simp [Kind.continuum]) _ _ _ _
    · right
      rw [hpost] at hx
      split_ifs at hx with hlt
      · have hk := List.mem_singleton.1 hx
        obtain ⟨j1, j2⟩ := h8 _ hk hlt
        exact ⟨ds, s, i, x, g1, hds, h1, h2, h3, h4, hk, hlt, by rw [h6, hk]; rfl, ⟨k, k1, k2, k3⟩,
          j1, j2⟩
      · simp at hx
  cases hds : D.scheme re.pdg with
  | error e =>
    refine loop_step hre (fun n p b g' h => ?_) c
    rcases step re Ex twoJ P ev g hre ha ho n p b g' h with h | ⟨ds, _, _, _, _, h, _⟩
    · exact h
    · rw [hds] at h; cases h
  | ok ds =>
  obtain ⟨δ, hδ, hsh⟩ := hD.shares re.pdg ds hds
  have hδ' : 0 < min δ 1 := lt_min hδ one_pos
  have key : ∀ {s : Channels}, 0 < s.1 → δ * s.1 ≤ otherWidth s → min δ 1 * s.1 ≤ otherWidth s :=
    fun h0 h => (mul_le_mul_of_nonneg_right (min_le_left _ _) h0.le).trans h
  -- barely above the highest level, when the next number is small
  have small : ∀ (c : Bool) (re' : Particle ℝ) (Ex : ℝ) (twoJ : Int) (P : Parity) (ev : Event ℝ) (g : G),
      ev.final[1]? = some re' → re'.pdg = re.pdg → Often E g → Ex ≤ contMin ds + 1e-12 →
      number E 0 g ∈ Set.Ioo 0 (min δ 1) → LoopEnds E D c Ex twoJ P ev g := by
    intro c re' Ex twoJ P ev g hre' hpdg ho hnear hu
    by_cases hc : c = true ∧ Ex > cutoff
    · refine loop_step hre' (fun n p b g' h => ?_) c
      rcases step re' Ex twoJ P ev g hre' (by rw [hpdg]; exact ha) ho n p b g' h with
        h | ⟨ds', s, i, x, g1, e1, e2, e3, e4, e5, e6, e7, -⟩
      · exact h
      · rw [hpdg, hds] at e1
        cases e1
        exact absurd e6 (not_gamCont e2 e3 hδ' (key e3 (hsh re' Ex twoJ P s hpdg hc.2 e7 hnear e2)) hu
          (ho.inside 0).2 e4 e5 _)
    · exact loop_stops hc _ _ _ _
  -- barely above the highest level, when small numbers are to come
  have near : ∀ (j : Nat) (c : Bool) (re' : Particle ℝ) (Ex : ℝ) (twoJ : Int) (P : Parity) (ev : Event ℝ)
      (g : G), ev.final[1]? = some re' → re'.pdg = re.pdg → Often E g → Ex ≤ contMin ds + 1e-12 →
      (∀ i, i < 5 → number E (j + i) g ∈ Set.Ioo 0 (min δ 1)) → LoopEnds E D c Ex twoJ P ev g := by
    intro j
    induction j using Nat.strong_induction_on with
    | _ j ihj =>
    intro c re' Ex twoJ P ev g hre' hpdg ho hnear hrun
    rcases Nat.eq_zero_or_pos j with rfl | hj
    · exact small c re' Ex twoJ P ev g hre' hpdg ho hnear (by simpa using hrun 0 (by omega))
    refine loop_step hre' (fun n p b g' h => ?_) c
    rcases step re' Ex twoJ P ev g hre' (by rw [hpdg]; exact ha) ho n p b g' h with
      h | ⟨ds', s, i, x, g1, -, -, -, -, -, -, -, hp, ⟨k, k1, k2, rfl⟩, hle, -⟩
    · exact h
    · have ho' := ho.after k
      by_cases hkj : k ≤ j
      · refine ihj (j - k) (by omega) b p.nucleus p.Ex p.twoJ p.P _ _ (final_two hre' _ _)
          (hp.trans hpdg) ho' (hle.trans hnear) fun i hi => ?_
        rw [number_after, show k + (j - k + i) = j + i by omega]
        exact hrun i hi
      · refine small b p.nucleus p.Ex p.twoJ p.P _ _ (final_two hre' _ _) (hp.trans hpdg) ho'
          (hle.trans hnear) ?_
        rw [number_after, show k + 0 = j + (k - j) by omega]
        exact hrun (k - j) (by omega)
  -- from further above
  have far : ∀ (q : Nat) (c : Bool) (re' : Particle ℝ) (Ex : ℝ) (twoJ : Int) (P : Parity) (ev : Event ℝ)
      (g : G), ev.final[1]? = some re' → re'.pdg = re.pdg → Often E g →
      Ex ≤ contMin ds + 1e-12 + q * (1e-12 / 4) → LoopEnds E D c Ex twoJ P ev g := by
    intro q
    induction q with
    | zero =>
      intro c re' Ex twoJ P ev g hre' hpdg ho hq
      obtain ⟨j, hj⟩ := ho.run 5 hδ' (min_le_right _ _)
      exact near j c re' Ex twoJ P ev g hre' hpdg ho (by simpa using hq) hj
    | succ q ihq =>
      intro c re' Ex twoJ P ev g hre' hpdg ho hq
      by_cases hn : Ex ≤ contMin ds + 1e-12 + q * (1e-12 / 4)
      · exact ihq c re' Ex twoJ P ev g hre' hpdg ho hn
      refine loop_step hre' (fun n p b g' h => ?_) c
      rcases step re' Ex twoJ P ev g hre' (by rw [hpdg]; exact ha) ho n p b g' h with
        h | ⟨ds', s, i, x, g1, e1, -, -, -, -, -, -, hp, ⟨k, k1, k2, rfl⟩, hle, hfar⟩
      · exact h
      · rw [hpdg, hds] at e1
        cases e1
        have hq0 : (0 : ℝ) ≤ q * (1e-12 / 4) := by positivity
        push_cast at hq
        refine ihq b p.nucleus p.Ex p.twoJ p.P _ _ (final_two hre' _ _) (hp.trans hpdg) (ho.after k) ?_
        have := hfar (by linarith)
        linarith
  obtain ⟨q, hq⟩ := exists_nat_ge ((Ex - contMin ds - 1e-12) / (1e-12 / 4))
  rw [div_le_iff₀ (by norm_num)] at hq
  exact far q c re Ex twoJ P ev g hre rfl ho (by linarith)

end Marley.Decay
