import Verif.Lemmas.DecayScheme
import Verif.Props.Kinematics

/-!
# C23-C26: decay schemes
-/

set_option autoImplicit false

namespace Marley.Props
open Marley Marley.Scheme
open Marley.Kin (OnShell SumsTo)
open Marley.Json (Str natText intText isDigit isSpace)

variable {K : Type}

/-! ## C24: adding levels and gammas -/

/-- A call that changes a decay scheme: `add_level`, or `add_gamma` on the level
at an address. -/
inductive SchemeOp (K : Type) where
  | level (l : Level K)
  | gamma (a : Nat) (g : Gamma K)

/-- The effect of one call. -/
def SchemeOp.apply [LinearOrder K] (s : Scheme K) : SchemeOp K → Scheme K
  | .level l => (addLevel s l).1
  | .gamma a g => addGamma s a g

/-- A scheme made by a sequence of calls, starting without levels. -/
def built [LinearOrder K] (Z A : Int) (ops : List (SchemeOp K)) : Scheme K :=
  ops.foldl SchemeOp.apply (Scheme.empty Z A 0)

/-- What identifies a level, apart from its gammas. -/
def Level.head (l : Level K) : K × Int × Parity := (l.energy, l.twoJ, l.parity)

/-- The levels added by the calls. -/
def added : List (SchemeOp K) → List (K × Int × Parity)
  | [] => []
  | .level l :: t => Level.head l :: added t
  | .gamma _ _ :: t => added t

theorem addGamma_heads (s : Scheme K) (a : Nat) (g : Gamma K) :
    (addGamma s a g).levels.map (fun l => Level.head l.2) =
      s.levels.map (fun l => Level.head l.2) := by
  have := congrArg (List.map Prod.snd) (addGamma_energy (s := s) a g)
  simpa [List.map_map, Function.comp_def, Level.head] using this

theorem built_aux [LinearOrder K] (ops : List (SchemeOp K)) (s : Scheme K) (h1 : Sorted s)
    (h2 : Addressed s) : Sorted (ops.foldl SchemeOp.apply s) ∧
      Addressed (ops.foldl SchemeOp.apply s) ∧
      ((ops.foldl SchemeOp.apply s).levels.map (fun l => Level.head l.2)).Perm
        (added ops ++ s.levels.map (fun l => Level.head l.2)) ∧
      (ops.foldl SchemeOp.apply s).Z = s.Z ∧ (ops.foldl SchemeOp.apply s).A = s.A := by
  induction ops generalizing s with
  | nil => simp [added, h1, h2]
  | cons o t ih =>
    rw [List.foldl_cons]
    cases o with
    | level l =>
      obtain ⟨i1, i2, i3, i4, i5⟩ := ih (addLevel s l).1 (addLevel_sorted h1 l)
        (addLevel_addressed h1 h2 l)
      refine ⟨i1, i2, i3.trans ?_, i4, i5⟩
      obtain ⟨a, b, e1, -, -, e2⟩ := addLevel_eq h1 l
      rw [e2, e1]
      simp only [added, List.map_append, List.map_cons, List.cons_append, List.append_assoc]
      refine List.Perm.trans (List.Perm.append_left _ List.perm_middle) List.perm_middle
    | gamma a g =>
      obtain ⟨i1, i2, i3, i4, i5⟩ := ih (addGamma s a g) (addGamma_sorted h1 a g)
        (addGamma_addressed h2 a g)
      refine ⟨i1, i2, ?_, i4, i5⟩
      rw [addGamma_heads] at i3
      exact i3

theorem empty_sorted [LinearOrder K] (Z A : Int) : Sorted (Scheme.empty Z A 0 : Scheme K) := by
  simp [Sorted, Scheme.empty]

theorem empty_addressed (Z A : Int) : Addressed (Scheme.empty Z A 0 : Scheme K) := by
  constructor <;> simp [Scheme.empty]

/-- C24: whatever the order in which levels (and gammas) are added, the scheme
holds exactly the levels added, with nondecreasing energies; the nuclide is the
one given at the start. -/
theorem C24_sorted_and_complete [LinearOrder K] (Z A : Int) (ops : List (SchemeOp K)) :
    (built Z A ops).levels.Pairwise (fun a b => a.2.energy ≤ b.2.energy) ∧
      ((built Z A ops).levels.map (fun l => Level.head l.2)).Perm (added ops) ∧
      (built Z A ops).Z = Z ∧ (built Z A ops).A = A := by
  obtain ⟨h1, -, h3, h4, h5⟩ := built_aux ops (Scheme.empty Z A 0) (empty_sorted Z A)
    (empty_addressed Z A)
  refine ⟨h1, ?_, h4, h5⟩
  simpa [built, Scheme.empty] using h3

/-- C24: the reference returned by `add_level` refers to the new level, and
those returned before still refer to the same levels. -/
theorem C24_references [LinearOrder K] (Z A : Int) (ops : List (SchemeOp K)) (l : Level K) :
    levelAt (addLevel (built Z A ops) l).1 (addLevel (built Z A ops) l).2 = some l ∧
      levelAt (built Z A ops) (addLevel (built Z A ops) l).2 = none ∧
      ∀ a m, levelAt (built Z A ops) a = some m →
        levelAt (addLevel (built Z A ops) l).1 a = some m := by
  obtain ⟨h1, h2, -, -, -⟩ := built_aux ops (Scheme.empty Z A 0) (empty_sorted Z A)
    (empty_addressed Z A)
  change Sorted (built Z A ops) at h1
  change Addressed (built Z A ops) at h2
  generalize built Z A ops = s at *
  have h3 := addLevel_addressed h1 h2 l
  obtain ⟨a, b, e1, -, -, e2⟩ := addLevel_eq h1 l
  refine ⟨?_, ?_, ?_⟩
  · refine levelAt_of_mem h3 ?_
    rw [e2]; simp
  · rw [e2]
    cases hx : levelAt s s.next with
    | none => rfl
    | some m => exact absurd (h2.below _ (levelAt_mem hx)) (lt_irrefl _)
  · intro x m hm
    refine levelAt_of_mem h3 ?_
    have := levelAt_mem hm
    rw [e1] at this
    rw [e2]
    simp only [List.mem_append, List.mem_cons] at this ⊢
    tauto

/-- C24: `add_gamma` appends the gamma to its level and changes no other. -/
theorem C24_add_gamma [LinearOrder K] (Z A : Int) (ops : List (SchemeOp K)) (a : Nat)
    (g : Gamma K) (b : Nat) :
    levelAt (addGamma (built Z A ops) a g) b = (levelAt (built Z A ops) b).map (fun l =>
      if b = a then ⟨l.energy, l.twoJ, l.parity, l.gammas ++ [g]⟩ else l) := by
  generalize built Z A ops = s
  simp only [levelAt, addGamma]
  generalize s.levels = ls
  induction ls with
  | nil => rfl
  | cons x t ih =>
    rw [List.map_cons, List.find?_cons, List.find?_cons]
    by_cases hx : x.1 = b
    · by_cases hb : b = a
      · have : x.1 = a := hx.trans hb
        simp [hx, hb]
      · have : x.1 ≠ a := fun h => hb (hx ▸ h)
        simp [hx, hb]
    · have h1 : ∀ y : Nat × Level K, y = (if x.1 = a then
          (x.1, { x.2 with gammas := x.2.gammas ++ [g] }) else x) → decide (y.1 = b) = false := by
        rintro y rfl; split_ifs <;> simpa using hx
      rw [h1 _ rfl]
      simp only [hx, decide_false]
      exact ih

/-- C24: a new level goes before those of the same energy that are there. -/
theorem C24_equal_energies [LinearOrder K] (Z A : Int) (ops : List (SchemeOp K)) (l : Level K) :
    ∃ before after, (addLevel (built Z A ops) l).1.levels =
        before ++ ((addLevel (built Z A ops) l).2, l) :: after ∧
      (built Z A ops).levels = before ++ after ∧ (∀ m ∈ before, m.2.energy < l.energy) ∧
      (∀ m ∈ after, l.energy ≤ m.2.energy) := by
  obtain ⟨h1, -, -, -, -⟩ := built_aux ops (Scheme.empty Z A 0) (empty_sorted Z A)
    (empty_addressed Z A)
  obtain ⟨a, b, e1, e3, e4, e2⟩ := addLevel_eq h1 l
  exact ⟨a, b, by rw [built, e2], e1, e3, e4⟩

/-- Three levels and two gammas, added out of order: the addresses are 0, 1, 2
for the levels at 3, 0 and 1. -/
def exOps : List (SchemeOp ℤ) :=
  [.level ⟨3, 2, ⟨true⟩, []⟩, .level ⟨0, 0, ⟨true⟩, []⟩, .level ⟨1, 4, ⟨false⟩, []⟩,
    .gamma 0 ⟨2, 1, some 2⟩, .gamma 2 ⟨1, 1, some 1⟩]

example : (built 19 40 exOps).levels.map (fun l => (l.1, l.2.energy, l.2.gammas.length)) =
    [(1, 0, 0), (2, 1, 1), (0, 3, 1)] := by decide +kernel
example : levelAt (built 19 40 exOps) 2 = some ⟨1, 4, ⟨false⟩, [⟨1, 1, some 1⟩]⟩ := by decide +kernel

/-! ## C23: the closest level -/

/-- C23: in a scheme with levels in order of energy the level found is at least
as close as every other; among levels equally close it has the highest energy. -/
theorem C23_closest [Field K] [LinearOrder K] [IsStrictOrderedRing K] {s : Scheme K}
    (hs : s.levels.Pairwise (fun a b => a.2.energy ≤ b.2.energy)) (hn : s.levels ≠ []) (E : K) :
    ∃ a l, closestLevel s E = .ok (some a) ∧ (a, l) ∈ s.levels ∧
      ∀ m ∈ s.levels, |E - l.energy| ≤ |E - m.2.energy| ∧
        (|E - l.energy| = |E - m.2.energy| → m.2.energy ≤ l.energy) := by
  obtain ⟨a, b, h1, h2, h3, h4⟩ := lowerBound_levels (s := s) hs E
  have hlen : s.levels.length ≠ 0 := fun h => hn (List.length_eq_zero_iff.1 h)
  -- distances on either side of the energy
  have dlo : ∀ m ∈ a, |E - m.2.energy| = E - m.2.energy := fun m hm =>
    abs_of_pos (sub_pos.2 (h2 m hm))
  have dhi : ∀ m ∈ b, |E - m.2.energy| = m.2.energy - E := fun m hm => by
    rw [abs_of_nonpos (sub_nonpos.2 (h3 m hm))]; ring
  rw [h1, List.pairwise_append] at hs
  obtain ⟨p1, p2, p3⟩ := hs
  -- the last of the levels below
  have last : ∀ a' x, a = a' ++ [x] → ∀ m ∈ a, m.2.energy ≤ x.2.energy := by
    intro a' x e m hm
    rw [e] at hm p1
    rcases List.mem_append.1 hm with h | h
    · exact (List.pairwise_append.1 p1).2.2 m h x (by simp)
    · rw [List.mem_singleton.1 h]
  simp only [closestLevel, h4]
  rw [if_neg hlen]
  rcases b with _ | ⟨y, b⟩
  · -- above all levels
    rw [List.append_nil] at h1
    rw [if_pos (by rw [h1])]
    rcases List.eq_nil_or_concat a with rfl | ⟨a', x, rfl⟩
    · exact absurd h1 hn
    · rw [List.concat_eq_append] at *
      have hx : s.levels[(a' ++ [x]).length - 1]? = some x := by rw [h1]; simp
      rw [hx]
      refine ⟨x.1, x.2, rfl, by rw [h1]; simp, ?_⟩
      intro m hm
      rw [h1] at hm
      have := last a' x rfl m hm
      rw [dlo m hm, dlo x (by simp)]
      exact ⟨by linarith, fun _ => this⟩
  · have first : ∀ m ∈ y :: b, y.2.energy ≤ m.2.energy := by
      intro m hm
      rcases List.mem_cons.1 hm with rfl | h
      · exact le_rfl
      · exact (List.pairwise_cons.1 p2).1 m h
    have hy : s.levels[a.length]? = some y := by rw [h1]; simp
    rw [if_neg (by rw [h1]; simp)]
    rcases List.eq_nil_or_concat a with rfl | ⟨a', x, rfl⟩
    · rw [if_neg (by simp), hy]
      refine ⟨y.1, y.2, rfl, by rw [h1]; simp, ?_⟩
      intro m hm
      rw [h1, List.nil_append] at hm
      have := first m hm
      rw [dhi m hm, dhi y (by simp)]
      exact ⟨by linarith, fun h => by linarith⟩
    · rw [List.concat_eq_append] at *
      have hx : s.levels[(a' ++ [x]).length - 1]? = some x := by rw [h1]; simp
      rw [if_pos (by simp), hy, hx]
      dsimp only
      rw [dhi y (by simp), dlo x (by simp)]
      have lx := h2 x (by simp)
      have ly := h3 y (by simp)
      split_ifs with hc
      · refine ⟨x.1, x.2, rfl, by rw [h1]; simp, ?_⟩
        intro m hm
        rw [h1] at hm
        rw [dlo x (by simp)]
        rcases List.mem_append.1 hm with h | h
        · have := last a' x rfl m h
          rw [dlo m h]; exact ⟨by linarith, fun _ => this⟩
        · have := first m h
          rw [dhi m h]; exact ⟨by linarith, fun _ => by linarith⟩
      · refine ⟨y.1, y.2, rfl, by rw [h1]; simp, ?_⟩
        intro m hm
        rw [h1] at hm
        rw [dhi y (by simp)]
        rcases List.mem_append.1 hm with h | h
        · have := last a' x rfl m h
          have := h2 m h
          rw [dlo m h]; exact ⟨by linarith, fun _ => by linarith⟩
        · have := first m h
          rw [dhi m h]; exact ⟨by linarith, fun _ => by linarith⟩

/-- C23 for every scheme made by adding levels and gammas. -/
theorem C23_closest_built [Field K] [LinearOrder K] [IsStrictOrderedRing K] (Z A : Int)
    (ops : List (SchemeOp K)) (hn : added ops ≠ []) (E : K) :
    ∃ a l, closestLevel (built Z A ops) E = .ok (some a) ∧ levelAt (built Z A ops) a = some l ∧
      ∀ m ∈ added ops, |E - l.energy| ≤ |E - m.1| := by
  obtain ⟨h1, h2, -, -⟩ := C24_sorted_and_complete Z A ops
  have hne : (built Z A ops).levels ≠ [] := by
    intro h; rw [h] at h2; exact hn (List.Perm.nil_eq h2).symm
  obtain ⟨a, l, e1, e2, e3⟩ := C23_closest h1 hne E
  refine ⟨a, l, e1, levelAt_of_mem ?_ e2, ?_⟩
  · exact (built_aux ops (Scheme.empty Z A 0) (empty_sorted Z A) (empty_addressed Z A)).2.1
  · intro m hm
    obtain ⟨x, hx, rfl⟩ := List.mem_map.1 (h2.mem_iff.2 hm)
    exact (e3 x hx).1

/-- C23: without levels the result is a null pointer. -/
theorem C23_no_levels [Ring K] [LinearOrder K] (Z A : Int) (n : Nat) (E : K) :
    closestLevel (Scheme.empty Z A n) E = .ok none := by
  simp [closestLevel, Scheme.empty]

/-- Levels at 0, 1 and 3. -/
def exScheme : Scheme ℚ := ⟨19, 40, [(1, ⟨0, 0, ⟨true⟩, []⟩), (2, ⟨1, 4, ⟨false⟩, [⟨1, 1, some 1⟩]⟩),
  (0, ⟨3, 2, ⟨true⟩, [⟨2, 1, some 2⟩, ⟨3, 1, some 1⟩]⟩)], 3⟩

example : closestLevel exScheme 2 = .ok (some 0) ∧ closestLevel exScheme (3/2) = .ok (some 2) := by
  constructor <;> decide +kernel
example : exScheme.levels.Pairwise (fun a b => a.2.energy ≤ b.2.energy) ∧ exScheme.levels ≠ [] := by
  constructor <;> decide +kernel

/-! ## C25: gamma cascades -/

/-- Every gamma of the scheme leads to a level of the scheme with less energy. -/
def Downward (s : Scheme ℝ) : Prop :=
  ∀ l ∈ s.levels, ∀ g ∈ l.2.gammas, ∃ m ∈ s.levels, g.dest = some m.1 ∧ m.2.energy < l.2.energy

/-- A draw in the range the generator gives: the index of one of the gammas, and
a cosine between -1 and 1. -/
def Draw.Valid (d : Draw) : Prop :=
  (∀ ws : List ℝ, ws ≠ [] → d.pick ws < ws.length) ∧ d.cosTheta ^ 2 ≤ 1

/-- `Path s a ds gs b`: the draws `ds` lead from the level at `a` along the
gammas `gs` to the level at `b`, which has no gammas. -/
inductive Path (s : Scheme ℝ) : Nat → List Draw → List (Gamma ℝ) → Nat → Prop where
  | stop {a : Nat} {l : Level ℝ} {ds : List Draw} : (a, l) ∈ s.levels → l.gammas = [] →
      Path s a ds [] a
  | step {a b c : Nat} {l : Level ℝ} {d : Draw} {ds : List Draw} {g : Gamma ℝ}
      {gs : List (Gamma ℝ)} : (a, l) ∈ s.levels →
      l.gammas[d.pick (l.gammas.map (·.ri))]? = some g → g.dest = some b → Path s b ds gs c →
      Path s a (d :: ds) (g :: gs) c

/-- A photon. -/
def IsPhoton (p : Particle ℝ) : Prop := p.pdg = 22 ∧ p.mass = 0 ∧ p.charge = 0 ∧ OnShell p

/-- Total energy and momentum of a list of particles. -/
def total (ps : List (Particle ℝ)) : ℝ × ℝ × ℝ × ℝ :=
  ((ps.map (·.E)).sum, (ps.map (·.px)).sum, (ps.map (·.py)).sum, (ps.map (·.pz)).sum)

theorem countP_lt_of_lt {ls : List (Nat × Level ℝ)} {x y : ℝ} (h : x < y)
    (hm : ∃ m ∈ ls, m.2.energy = x) :
    ls.countP (fun m => decide (m.2.energy < x)) < ls.countP (fun m => decide (m.2.energy < y)) := by
  induction ls with
  | nil => simp at hm
  | cons z t ih =>
    rw [List.countP_cons, List.countP_cons]
    have mono : t.countP (fun m => decide (m.2.energy < x)) ≤
        t.countP (fun m => decide (m.2.energy < y)) :=
      List.countP_mono_left (fun m _ hm => by
        simp only [decide_eq_true_eq] at hm ⊢; exact lt_trans hm h)
    by_cases hz : z.2.energy = x
    · simp only [hz, lt_irrefl, h, decide_true, decide_false, if_true, Bool.false_eq_true, if_false]
      omega
    · have ht : ∃ m ∈ t, m.2.energy = x := by
        obtain ⟨m, hm, e⟩ := hm
        rcases List.mem_cons.1 hm with rfl | hm
        · exact absurd e hz
        · exact ⟨m, hm, e⟩
      have := ih ht
      by_cases h1 : z.2.energy < x
      · have h2 : z.2.energy < y := lt_trans h1 h
        simp only [h1, h2, decide_true, if_true]; omega
      · simp only [h1, decide_false, Bool.false_eq_true, if_false]
        split_ifs <;> omega

/-- C25, from any level: see `C25_cascade`. -/
theorem cascade_aux {s : Scheme ℝ} (ha : Addressed s) (hd : Downward s) {mAtom me : ℝ} {q : Int}
    (he : ∀ l ∈ s.levels, 0 ≤ l.2.energy) (hM : 0 < mAtom - q * me) (ds : List Draw)
    (hds : ∀ d ∈ ds, Draw.Valid d) (a : Nat) (l : Level ℝ) (hl : (a, l) ∈ s.levels)
    (hlen : s.levels.countP (fun m => decide (m.2.energy < l.energy)) ≤ ds.length)
    (ev : Event ℝ) (ej re : Particle ℝ) (rest : List (Particle ℝ))
    (hev : ev.final = ej :: re :: rest) (hre : OnShell re)
    (hm : re.mass = mAtom + l.energy - q * me) :
    ∃ b lb gs photons re', doCascade s mAtom me q a ev ds =
        .finished b { ev with final := ej :: re' :: (rest ++ photons) } ∧
      Path s a ds gs b ∧ (b, lb) ∈ s.levels ∧ lb.gammas = [] ∧ photons.length = gs.length ∧
      (∀ p ∈ photons, IsPhoton p) ∧ OnShell re' ∧
      re'.mass = re.mass - (l.energy - lb.energy) ∧
      (gs = [] → re' = re) ∧
      (gs ≠ [] → re'.pdg = Pdg.nucleusPid s.Z s.A ∧ re'.charge = q) ∧
      total (re' :: photons) = (re.E, re.px, re.py, re.pz) := by
  induction ds generalizing a l ev re rest with
  | nil =>
    have hg : l.gammas = [] := by
      rcases hgs : l.gammas with _ | ⟨g, t⟩
      · rfl
      · obtain ⟨m, hm, -, hlt⟩ := hd (a, l) hl g (by simp [hgs])
        have : 0 < s.levels.countP (fun m => decide (m.2.energy < l.energy)) :=
          List.countP_pos_iff.2 ⟨m, hm, by simpa using hlt⟩
        rw [List.length_nil] at hlen
        omega
    refine ⟨a, l, [], [], re, ?_, .stop hl hg, hl, hg, rfl, by simp, hre, by ring, by simp,
      by simp, by simp [total]⟩
    unfold doCascade
    rw [levelAt_of_mem ha hl]
    simp [hg, ← hev]
  | cons d ds ih =>
    by_cases hg : l.gammas = []
    · refine ⟨a, l, [], [], re, ?_, .stop hl hg, hl, hg, rfl, by simp, hre, by ring, by simp,
        by simp, by simp [total]⟩
      unfold doCascade
      rw [levelAt_of_mem ha hl]
      simp [hg, ← hev]
    · obtain ⟨v1, v2⟩ := hds d (by simp)
      have hlt : d.pick (l.gammas.map (·.ri)) < l.gammas.length := by
        have := v1 (l.gammas.map (·.ri)) (by simpa using hg)
        simpa using this
      have hgi := List.getElem?_eq_getElem hlt
      generalize l.gammas[d.pick (l.gammas.map (·.ri))] = g at hgi
      have hgm : g ∈ l.gammas := List.mem_of_getElem? hgi
      obtain ⟨⟨b, lf⟩, hb, hdest, hlow⟩ := hd (a, l) hl g hgm
      dsimp only at hdest hlow
      have hef := he _ hb
      dsimp only at hef
      obtain ⟨ph, nu, k1, k2, k3, k4, k5, k6, -⟩ := Props.C47_conserves (t := re)
        (a := ⟨22, 0, 0, 0, 0, 0, 0⟩)
        (b := ⟨Pdg.nucleusPid s.Z s.A, mAtom + lf.energy - q * me, 0, 0, 0,
          mAtom + lf.energy - q * me, q⟩) (c := d.cosTheta) d.phi hre
        (by rw [hm]; linarith) le_rfl (by dsimp only; linarith)
        (by dsimp only; rw [hm]; linarith) v2
      obtain ⟨n1, n2, n3⟩ := k5
      obtain ⟨f1, f2, f3⟩ := k4
      dsimp only at n1 n2 n3 f1 f2 f3
      have hcount := countP_lt_of_lt (ls := s.levels) hlow ⟨(b, lf), hb, rfl⟩
      have hlen' : s.levels.countP (fun m => decide (m.2.energy < lf.energy)) ≤ ds.length := by
        rw [List.length_cons] at hlen; omega
      obtain ⟨c, lc, gs, photons, re', r1, r2, r3, r4, r5, r6, r7, r8, r9, r10, r11⟩ :=
        ih (fun d hd => hds d (by simp [hd])) b lf hb hlen' (emit ev nu ph) nu (rest ++ [ph])
          (by simp [emit, hev]) k3 n2
      refine ⟨c, lc, g :: gs, ph :: photons, re', ?_, .step hl hgi hdest r2, r3, r4,
        by simp [r5], ?_, r7, ?_, by simp, ?_, ?_⟩
      · unfold doCascade
        rw [levelAt_of_mem ha hl]
        dsimp only
        rw [if_neg hg, hgi]
        dsimp only
        rw [hdest]
        dsimp only
        rw [levelAt_of_mem ha hb]
        dsimp only
        rw [hev]
        simp only [List.getElem?_cons_succ, List.getElem?_cons_zero]
        rw [k1]
        dsimp only
        rw [r1]
        simp [emit]
      · intro p hp
        rcases List.mem_cons.1 hp with rfl | hp
        · exact ⟨f1, f2, f3, k2⟩
        · exact r6 p hp
      · rw [r8, n2, hm]; ring
      · intro _
        by_cases hgs : gs = []
        · rw [r9 hgs]; exact ⟨n1, n3⟩
        · exact r10 hgs
      · obtain ⟨s1, s2, s3, s4⟩ := k6
        simp only [total, List.map_cons, List.sum_cons, Prod.mk.injEq] at r11 ⊢
        obtain ⟨t1, t2, t3, t4⟩ := r11
        exact ⟨by linarith, by linarith, by linarith, by linarith⟩

/-- C25: in a scheme whose gammas lead to lower levels, a cascade from any level
ends, after at most as many transitions as there are levels, in a level without
gammas.  It follows the gammas drawn; for each one photon is appended to the
final particles, in order, and the residue is replaced; nothing else in the event
changes.  The mass of the residue goes down by the difference between the
energies of the first and the last level, and the residue and the photons
together carry the four-momentum the residue had.  `mAtom` is the atomic mass,
`q` the charge of the ion and `me` the electron mass. -/
theorem C25_cascade {s : Scheme ℝ} (ha : (s.levels.map (·.1)).Nodup) (hd : Downward s)
    {mAtom me : ℝ} {q : Int} (he : ∀ l ∈ s.levels, 0 ≤ l.2.energy) (hM : 0 < mAtom - q * me)
    (ds : List Draw) (hds : ∀ d ∈ ds, Draw.Valid d) (hlen : s.levels.length ≤ ds.length)
    (a : Nat) (l : Level ℝ) (hl : (a, l) ∈ s.levels) (ev : Event ℝ) (ej re : Particle ℝ)
    (rest : List (Particle ℝ)) (hev : ev.final = ej :: re :: rest) (hre : OnShell re)
    (hm : re.mass = mAtom + l.energy - q * me) :
    ∃ b lb gs photons re', doCascade s mAtom me q a ev ds =
        .finished b { ev with final := ej :: re' :: (rest ++ photons) } ∧
      Path s a ds gs b ∧ (b, lb) ∈ s.levels ∧ lb.gammas = [] ∧ photons.length = gs.length ∧
      (∀ p ∈ photons, IsPhoton p) ∧ OnShell re' ∧
      re'.mass = re.mass - (l.energy - lb.energy) ∧
      (gs = [] → re' = re) ∧
      (gs ≠ [] → re'.pdg = Pdg.nucleusPid s.Z s.A ∧ re'.charge = q) ∧
      total (re' :: photons) = (re.E, re.px, re.py, re.pz) := by
  -- addresses in a scheme are always below the next free one; the cascade does not use it
  have key : ∀ n, (∀ x ∈ s.levels, x.1 < n) → ∀ s' : Scheme ℝ, s' = { s with next := n } →
      Addressed s' := by
    rintro n hn s' rfl
    exact ⟨ha, hn⟩
  obtain ⟨n, hn⟩ : ∃ n, ∀ x ∈ s.levels, x.1 < n := by
    refine ⟨(s.levels.map (·.1)).sum + 1, fun x hx => ?_⟩
    have := List.le_sum_of_mem (List.mem_map.2 ⟨x, hx, rfl⟩ : x.1 ∈ s.levels.map (·.1))
    omega
  have same : ∀ a ev ds, doCascade { s with next := n } mAtom me q a ev ds =
      doCascade s mAtom me q a ev ds := by
    intro a ev ds
    induction ds generalizing a ev with
    | nil => unfold doCascade; rfl
    | cons d ds ih =>
      unfold doCascade
      simp only [ih]
      rfl
  have path : ∀ a ds gs b, Path { s with next := n } a ds gs b → Path s a ds gs b := by
    intro a ds gs b h
    induction h with
    | stop h1 h2 => exact .stop h1 h2
    | step h1 h2 h3 _ ih => exact .step h1 h2 h3 ih
  obtain ⟨b, lb, gs, photons, re', r1, r2, r3⟩ := cascade_aux (key n hn _ rfl) hd he hM ds hds a l hl
    (le_trans List.countP_le_length hlen) ev ej re rest hev hre hm
  rw [same] at r1
  exact ⟨b, lb, gs, photons, re', r1, path _ _ _ _ r2, r3⟩

/-- C25: a gamma without an end level makes the cascade fail with
`marley::Error`. -/
theorem C25_null_end_level {s : Scheme ℝ} {a : Nat} {l : Level ℝ} {mAtom me : ℝ} {q : Int}
    (h : levelAt s a = some l) {d : Draw} {ds : List Draw} {g : Gamma ℝ}
    (hg : l.gammas[d.pick (l.gammas.map (·.ri))]? = some g) (hn : g.dest = none) (ev : Event ℝ) :
    doCascade s mAtom me q a ev (d :: ds) = .failed .marleyError := by
  have hne : l.gammas ≠ [] := by intro h; rw [h] at hg; simp at hg
  unfold doCascade
  rw [h]; dsimp only; rw [if_neg hne, hg]; dsimp only; rw [hn]

/-- Levels at 0, 1 and 3 with gammas downwards. -/
def exCascade : Scheme ℝ := ⟨19, 40, [(1, ⟨0, 0, ⟨true⟩, []⟩), (2, ⟨1, 4, ⟨false⟩, [⟨1, 1, some 1⟩]⟩),
  (0, ⟨3, 2, ⟨true⟩, [⟨2, 1, some 2⟩, ⟨3, 1, some 1⟩]⟩)], 3⟩

/-- A draw that always takes the first gamma. -/
noncomputable def exDraw : Draw := ⟨fun _ => 0, 1/2, 1⟩

-- a cascade from the highest level of an ion of charge 1 and atomic mass 100, at rest
example : ∃ b lb photons re', doCascade exCascade 100 (1/2) 1 0
      ⟨[], [⟨11, 1, 0, 0, 0, 1, -1⟩, ⟨1000190400, 102.5, 0, 0, 0, 102.5, 1⟩], 3, 2, ⟨true⟩⟩
      [exDraw, exDraw, exDraw] =
        .finished b ⟨[], ⟨11, 1, 0, 0, 0, 1, -1⟩ :: re' :: photons, 3, 2, ⟨true⟩⟩ ∧
      re'.mass = 102.5 - (3 - lb) := by
  obtain ⟨b, lb, gs, ph, re', h1, -, -, -, -, -, -, h2, -⟩ := C25_cascade (s := exCascade)
    (mAtom := 100) (me := 1/2) (q := 1) (by simp [exCascade])
    (by simp [Downward, exCascade]) (by simp [exCascade]) (by norm_num)
    [exDraw, exDraw, exDraw]
    (by
      intro d hd
      have : d = exDraw := by simpa using hd
      subst this
      exact ⟨fun ws h => List.length_pos_iff.2 h, by norm_num [exDraw]⟩)
    (by simp [exCascade]) 0
    ⟨3, 2, ⟨true⟩, [⟨2, 1, some 2⟩, ⟨3, 1, some 1⟩]⟩ (by simp [exCascade])
    ⟨[], [⟨11, 1, 0, 0, 0, 1, -1⟩, ⟨1000190400, 102.5, 0, 0, 0, 102.5, 1⟩], 3, 2, ⟨true⟩⟩
    ⟨11, 1, 0, 0, 0, 1, -1⟩ ⟨1000190400, 102.5, 0, 0, 0, 102.5, 1⟩ [] rfl
    (by constructor <;> norm_num) (by norm_num)
  exact ⟨b, lb.energy, ph, re', h1, h2⟩

/-! ## C26: text round trip -/

/-- Position in the scheme of the level a gamma ends in. -/
def endPosition (s : Scheme K) (g : Gamma K) : Option Nat :=
  g.dest.bind (fun a => s.levels.findIdx? (fun l => l.1 == a))

/-- What can be seen of a scheme: nuclide, levels in order, and for each its
energy, spin, parity and gammas with energies, intensities and end levels. -/
def view (s : Scheme K) : Int × Int × List (K × Int × Parity × List (K × K × Option Nat)) :=
  (s.Z, s.A, s.levels.map (fun l => (l.2.energy, l.2.twoJ, l.2.parity,
    l.2.gammas.map (fun g => (g.energy, g.ri, endPosition s g)))))

/-- Integers fit into an `int`. -/
def FitsInt (n : Int) : Prop := -2147483648 ≤ n ∧ n ≤ 2147483647

/-- The schemes for which the round trip is claimed: energies are strictly
increasing, and gammas end in levels of the scheme that are not higher. -/
structure Writable [LT K] (s : Scheme K) : Prop where
  Z : FitsInt s.Z
  A : FitsInt s.A
  levels : FitsInt s.levels.length
  spins : ∀ l ∈ s.levels, FitsInt l.2.twoJ
  gammas : ∀ l ∈ s.levels, FitsInt l.2.gammas.length
  distinct : s.levels.Pairwise (fun a b => a.2.energy < b.2.energy)
  ends : ∀ i l, s.levels[i]? = some l → ∀ g ∈ l.2.gammas, ∃ j ≤ i, endPosition s g = some j

theorem destIndex_of_endPosition {s : Scheme K} {g : Gamma K} {j : Nat}
    (h : endPosition s g = some j) : destIndex s g = j := by
  simp only [endPosition, Option.bind_eq_some_iff] at h
  obtain ⟨a, h1, h2⟩ := h
  rw [List.findIdx?_eq_some_iff_findIdx_eq] at h2
  obtain ⟨h3, h4⟩ := h2
  have : s.levels.findIdx (fun l => decide (l.1 = a)) = j := by
    rw [← h4]; congr 1
  rw [destIndex, h1]
  dsimp only
  rw [this, if_pos h3]

theorem Writable.printable [LinearOrder K] {s : Scheme K} (h : Writable s) : Printable s := by
  refine ⟨h.Z, h.A, h.levels.2, h.distinct, fun i l hl => ?_⟩
  have hm := List.mem_of_getElem? hl
  refine ⟨h.spins l hm, (h.gammas l hm).2, fun g hg => ?_⟩
  obtain ⟨j, hj, e⟩ := h.ends i l hl g hg
  rw [destIndex_of_endPosition e]
  omega

theorem findIdx?_reLevels (s : Scheme K) (next k j : Nat) (ls : List (Nat × Level K))
    (hj : j < ls.length) : (reLevels s next k ls).findIdx? (fun l => l.1 == k + j) = some j := by
  rw [List.findIdx?_eq_some_iff_getElem]
  have hlen : j < (reLevels s next k ls).length := by rw [reLevels_length]; exact hj
  have val : ∀ i (hi : i < (reLevels s next k ls).length), (reLevels s next k ls)[i].1 = k + i := by
    intro i hi
    have := reLevels_get s next k i ls
    rw [List.getElem?_eq_getElem hi,
      List.getElem?_eq_getElem (by rw [reLevels_length] at hi; exact hi)] at this
    simp only [Option.map_some, Option.some.injEq] at this
    rw [this]
  refine ⟨hlen, by simp [val], ?_⟩
  intro i hi
  rw [val i (by omega)]
  simp; omega

/-- C26: what `operator<<` writes is read back by `operator>>` as a scheme with
the same nuclide, levels and gammas with the same end levels; everything after
the last field stays in the stream.  Partial: it is claimed only for schemes
with strictly increasing energies whose gammas do not lead upwards, and for a
stream that writes doubles with enough digits (`f.Lawful`). -/
theorem C26_round_trip_partial [Zero K] [LinearOrder K] {f : DblFmt K} (hf : f.Lawful)
    {s : Scheme K} (hs : Writable s) (next : Nat) (t : Str) :
    ∃ s', read f next (print f s ++ t) = .ok (s', some ('\n' :: t)) ∧ view s' = view s := by
  refine ⟨_, read_print hf s hs.printable next t, ?_⟩
  simp only [view, Prod.mk.injEq, true_and]
  apply List.ext_getElem?
  intro i
  rw [List.getElem?_map, List.getElem?_map, reLevels_get]
  cases hl : s.levels[i]? with
  | none => rfl
  | some l =>
    simp only [Option.map_some, reLevel, Option.some.injEq, Prod.mk.injEq, true_and, List.map_map]
    apply List.map_congr_left
    intro g hg
    obtain ⟨j, hj, e⟩ := hs.ends i l hl g hg
    have hjl : j < s.levels.length := by
      have := (List.getElem?_eq_some_iff.1 hl).1
      omega
    simp only [Function.comp, reGamma, Prod.mk.injEq, true_and]
    rw [e, destIndex_of_endPosition e]
    simp only [endPosition, Option.bind_some, Int.toNat_natCast]
    exact findIdx?_reLevels s next next j s.levels hjl

/-- Two levels with the same energy. -/
def equalPair (E : K) : Scheme K :=
  ⟨19, 40, [(0, ⟨E, 4, ⟨true⟩, []⟩), (1, ⟨E, 8, ⟨false⟩, []⟩)], 2⟩

theorem equalPair_read [Zero K] [LinearOrder K] {f : DblFmt K} (hf : f.Lawful) (E : K) :
    read f 0 (print f (equalPair E)) = .ok
      (⟨19, 40, [(1, ⟨E, 8, ⟨false⟩, []⟩), (0, ⟨E, 4, ⟨true⟩, []⟩)], 2⟩, some ['\n']) := by
  obtain ⟨v0, i0, h0⟩ := read_header (f := f) (equalPair E) (by simp [equalPair, intMin, intMax])
    (by simp [equalPair, intMin, intMax]) (by simp [equalPair, intMax]) 0 []
  rw [List.append_nil] at h0
  rw [h0]
  simp only [equalPair, List.flatMap_cons, List.flatMap_nil, List.append_nil] at i0 ⊢
  obtain ⟨v1, i1, h1⟩ := readLevels_level hf _ _ (by simp [intMin, intMax]) (by simp [intMax]) 1
    (Scheme.empty 19 40 0) v0 _ i0
  simp only [List.length_cons, List.length_nil]
  rw [h1]
  simp only [readGammas, List.length_nil]
  rw [List.flatMap_nil, List.nil_append, ← List.append_nil (printLevel f _ _)] at i1
  obtain ⟨v2, i2, h2⟩ := readLevels_level hf _ _ (by simp [intMin, intMax]) (by simp [intMax]) 0
    (addLevel (Scheme.empty 19 40 0) ⟨E, 4, ⟨true⟩, []⟩).1 v1 _ i1
  rw [h2]
  simp only [readGammas, readLevels, List.length_nil]
  rw [i2]
  have : ∀ T : Scheme K, T = (addLevel (Scheme.empty 19 40 0) ⟨E, 4, ⟨true⟩, []⟩).1 →
      (addLevel T ⟨E, 8, ⟨false⟩, []⟩).1 = (⟨19, 40, [(1, ⟨E, 8, ⟨false⟩, []⟩),
        (0, ⟨E, 4, ⟨true⟩, []⟩)], 2⟩ : Scheme K) := by
    intro T hT
    have hs : Sorted T := by rw [hT]; exact addLevel_sorted (empty_sorted 19 40) _
    have e0 : T = ⟨19, 40, [(0, ⟨E, 4, ⟨true⟩, []⟩)], 1⟩ := by
      rw [hT]
      obtain ⟨a, b, e1, -, -, e2⟩ := addLevel_eq (empty_sorted (K := K) 19 40) ⟨E, 4, ⟨true⟩, []⟩
      simp only [Scheme.empty, List.nil_eq_append_iff] at e1
      rw [e2, e1.1, e1.2]; rfl
    obtain ⟨a, b, e1, e2, e3, e4⟩ := addLevel_eq hs ⟨E, 8, ⟨false⟩, []⟩
    rw [e4]
    rw [e0] at e1 ⊢
    rcases a with _ | ⟨x, a⟩
    · simp only [List.nil_append] at e1 ⊢
      rw [← e1]
    · simp only [List.cons_append, List.cons.injEq] at e1
      have := e2 x (by simp)
      rw [← e1.1] at this
      exact absurd this (lt_irrefl _)
  rw [this _ rfl]
  rfl

/-- C26 does not hold for levels with equal energies: they come back in the
opposite order. -/
theorem C26_equal_energies_fails [Zero K] [LinearOrder K] {f : DblFmt K} (hf : f.Lawful) (E : K) :
    ∃ s', read f 0 (print f (equalPair E)) = .ok (s', some ['\n']) ∧
      view s' ≠ view (equalPair E) :=
  ⟨_, equalPair_read hf E, by simp [view, equalPair]⟩

/-- The first of two levels has a gamma to the second. -/
def upward (E0 E1 : K) : Scheme K :=
  ⟨19, 40, [(0, ⟨E0, 4, ⟨true⟩, [⟨E1, E1, some 1⟩]⟩), (1, ⟨E1, 8, ⟨false⟩, []⟩)], 2⟩

/-- C26 does not hold for a scheme with a gamma to a higher level (or to one
outside the scheme, which is written as -1): reading it throws
`std::out_of_range`. -/
theorem C26_upward_gamma_fails [Zero K] [LinearOrder K] {f : DblFmt K} (hf : f.Lawful) (E0 E1 : K) :
    read f 0 (print f (upward E0 E1)) = .error .outOfRange := by
  obtain ⟨v0, i0, h0⟩ := read_header (f := f) (upward E0 E1) (by simp [upward, intMin, intMax])
    (by simp [upward, intMin, intMax]) (by simp [upward, intMax]) 0 []
  rw [List.append_nil] at h0
  rw [h0]
  have hd : destIndex (upward E0 E1) ⟨E1, E1, some 1⟩ = 1 := by
    simp [destIndex, upward, List.findIdx_cons]
  simp only [upward, List.flatMap_cons, List.flatMap_nil, List.append_nil] at i0 hd ⊢
  obtain ⟨v1, i1, h1⟩ := readLevels_level hf _ _ (by simp [intMin, intMax]) (by simp [intMax]) 1
    (Scheme.empty 19 40 0) v0 _ i0
  simp only [List.length_cons, List.length_nil]
  rw [h1]
  simp only [List.flatMap_cons, List.flatMap_nil, List.append_nil] at i1
  obtain ⟨v2, i2, h2⟩ := readGammas_gamma hf _ _ (by rw [hd]; simp [intMin, intMax]) 0
    (addLevel (Scheme.empty 19 40 0) (⟨E0, 4, ⟨true⟩, []⟩ : Level K)).2
    (addLevel (Scheme.empty 19 40 0) (⟨E0, 4, ⟨true⟩, []⟩ : Level K)).1 v1 _ i1
  simp only [List.length_cons, List.length_nil]
  rw [h2, hd]
  have e0 : (addLevel (Scheme.empty 19 40 0) (⟨E0, 4, ⟨true⟩, []⟩ : Level K)).1.levels.length = 1 := by
    obtain ⟨a, b, e1, -, -, e2⟩ := addLevel_eq (empty_sorted (K := K) 19 40) ⟨E0, 4, ⟨true⟩, []⟩
    simp only [Scheme.empty, List.nil_eq_append_iff] at e1
    rw [e2, e1.1, e1.2]; rfl
  rw [pointerAt, if_neg (by simp), List.getElem?_eq_none (by rw [e0]; simp)]

-- a scheme with two gammas that can be written, and a lawful format
theorem exScheme_writable : Writable exScheme := by
  refine ⟨by simp [FitsInt, exScheme], by simp [FitsInt, exScheme], by simp [FitsInt, exScheme],
    by simp [FitsInt, exScheme], by simp [FitsInt, exScheme], by decide +kernel, ?_⟩
  intro i l hl g hg
  rcases i with _ | _ | _ | i
  · simp only [exScheme, List.getElem?_cons_zero, Option.some.injEq] at hl
    subst hl; simp at hg
  · simp only [exScheme, List.getElem?_cons_zero, List.getElem?_cons_succ, Option.some.injEq] at hl
    subst hl
    exact ⟨0, by omega, by
      simp only [List.mem_singleton] at hg; subst hg; decide +kernel⟩
  · simp only [exScheme, List.getElem?_cons_zero, List.getElem?_cons_succ, Option.some.injEq] at hl
    subst hl
    simp only [List.mem_cons, List.not_mem_nil, or_false] at hg
    rcases hg with rfl | rfl
    · exact ⟨1, by omega, by decide +kernel⟩
    · exact ⟨0, by omega, by decide +kernel⟩
  · simp [exScheme] at hl

example : ∃ s', read ratFmt 7 (print ratFmt exScheme ++ ['x']) = .ok (s', some ['\n', 'x']) ∧
    view s' = view exScheme := C26_round_trip_partial ratFmt_lawful exScheme_writable 7 _

end Marley.Props
