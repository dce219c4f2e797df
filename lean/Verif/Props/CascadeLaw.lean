import Verif.Spec.CascadeLaw
import Verif.Lemmas.RejectionLaw
import Verif.Lemmas.Discrete
import Verif.Model.Decayer

/-!
# C127: gamma cascades follow the branching ratios
-/

set_option autoImplicit false

namespace Marley.Props
open Marley Marley.Scheme Marley.Sampling Marley.Gammas Marley.Decay MeasureTheory
open Marley.Kin (OnShell SumsTo)

instance draws_prob (N : Nat) : IsProbabilityMeasure (draws N) := by
  unfold draws; infer_instance

theorem draws_succ (N : Nat) (A : Set ℝ) (B : Set (Fin N → ℝ)) :
    draws (N + 1) {d | d 0 ∈ A ∧ (fun j : Fin N => d j.succ) ∈ B} = unit A * draws N B := by
  have h := measurePreserving_piFinSuccAbove (fun _ : Fin (N + 1) => unit) 0
  have h2 := h.measure_preimage_equiv (A ×ˢ B)
  rw [Measure.prod_prod] at h2
  exact h2

theorem draws_skip (N : Nat) (B : Set (Fin N → ℝ)) :
    draws (N + 1) {d | (fun j : Fin N => d j.succ) ∈ B} = draws N B := by
  have h := draws_succ N Set.univ B
  simpa using h

theorem level_unique {s : Scheme ℝ} (ha : (s.levels.map (·.1)).Nodup) {a : Nat} {l m : Level ℝ}
    (h1 : (a, l) ∈ s.levels) (h2 : (a, m) ∈ s.levels) : l = m := by
  have := List.inj_on_of_nodup_map ha h1 h2 rfl
  exact (Prod.mk.inj this).2

theorem levelAt_listed {s : Scheme ℝ} (ha : (s.levels.map (·.1)).Nodup) {a : Nat} {l : Level ℝ}
    (h : (a, l) ∈ s.levels) : levelAt s a = some l := by
  simp only [levelAt, Option.map_eq_some_iff]
  cases hf : s.levels.find? (fun x => x.1 = a) with
  | none =>
    rw [List.find?_eq_none] at hf
    exact absurd (by simp) (hf _ h)
  | some x =>
    have h1 := List.mem_of_find?_eq_some hf
    have h2 : x.1 = a := by simpa using List.find?_some hf
    obtain ⟨b, m⟩ := x
    dsimp only at h2
    subst h2
    exact ⟨_, rfl, level_unique ha h1 h⟩

theorem pick_total {w : List ℝ} (hw : ∀ x ∈ w, 0 ≤ x) (hs : 0 < w.sum) (u : ℝ) :
    ∃ i, pick w u = .ok i := by
  have hn : ¬ (w.any (· < 0) = true ∨ w.sum = 0) := by
    rintro (h | h)
    · simp only [List.any_eq_true, decide_eq_true_eq] at h
      obtain ⟨x, hx, h⟩ := h
      exact absurd (hw x hx) (not_le.2 h)
    · exact hs.ne' h
  unfold pick
  by_cases hl : w.length < 2
  · exact ⟨_, if_pos hl⟩
  · exact ⟨_, by rw [if_neg hl, if_neg hn]⟩

/-- A route has no more gammas than there are levels below the first one. -/
theorem way_length {s : Scheme ℝ} (hd : Downward s) (ha : (s.levels.map (·.1)).Nodup) {a : Nat}
    {is : List Nat} {p : ℝ} (h : Way s a is p) {l : Level ℝ} (hl : (a, l) ∈ s.levels) :
    is.length ≤ s.levels.countP (fun m => decide (m.2.energy < l.energy)) := by
  induction h generalizing l with
  | stop => simp
  | step h1 h2 h3 _ ih =>
    cases level_unique ha h1 hl
    obtain ⟨⟨b', lf⟩, hb, hdest, hlow⟩ := hd _ hl _ (List.mem_of_getElem? h2)
    rw [h3] at hdest
    cases hdest
    have := ih hb
    have := countP_lt_of_lt (ls := s.levels) hlow ⟨_, hb, rfl⟩
    rw [List.length_cons]
    dsimp only at *
    omega

/-- The numbers that stand for a gamma. -/
theorem unit_picks {w : List ℝ} (hw : ∀ x ∈ w, 0 ≤ x) (hs : 0 < w.sum) {i : Nat} {x : ℝ}
    (hi : w[i]? = some x) :
    unit {u | (w.take i).sum < u * w.sum ∧ u * w.sum ≤ (w.take (i + 1)).sum} =
      ENNReal.ofReal (x / w.sum) := by
  rw [← pick_volume hw hs hi, unit, Measure.restrict_apply' measurableSet_Ico]
  congr 1
  ext u
  simp only [Set.mem_inter_iff, Set.mem_ofPred_eq, Set.mem_Ico]
  have hlt : i < w.length := (List.getElem?_eq_some_iff.1 hi).1
  have hnn : 0 ≤ (w.take i).sum := List.sum_nonneg fun y hy => hw y (List.mem_of_mem_take hy)
  constructor
  · rintro ⟨⟨h1, h2⟩, h3, h4⟩
    have h0 : 0 < u := by
      rcases h3.lt_or_eq with h | h
      · exact h
      · rw [← h] at h1; linarith
    exact ⟨h0, h4, (pick_iff hw hs h0 h4.le i).2 ⟨hlt, h1, h2⟩⟩
  · rintro ⟨h0, h4, h5⟩
    obtain ⟨-, h1, h2⟩ := (pick_iff hw hs h0 h4.le i).1 h5
    exact ⟨⟨h1, h2⟩, h0.le, h4⟩

theorem followed_stop {s : Scheme ℝ} {a : Nat} {l : Level ℝ} (hl : (a, l) ∈ s.levels)
    (hg : l.gammas = []) (us : List ℝ) : Followed s a us [] := .stop hl hg

theorem followed_only {s : Scheme ℝ} (ha : (s.levels.map (·.1)).Nodup) {a b : Nat} {l : Level ℝ}
    {g : Gamma ℝ} (hl : (a, l) ∈ s.levels) (hg : l.gammas = [g]) (hb : g.dest = some b) {c phi : ℝ}
    {us : List ℝ} {is : List Nat} :
    Followed s a (c :: phi :: us) (0 :: is) ↔ Followed s b us is := by
  refine ⟨fun h => ?_, .only hl hg hb⟩
  cases h with
  | only h1 h2 h3 h4 =>
    cases level_unique ha hl h1
    rw [hg] at h2
    cases h2
    rw [hb] at h3
    cases h3
    exact h4
  | choice h1 h2 =>
    cases level_unique ha hl h1
    rw [hg] at h2
    simp at h2

theorem followed_choice {s : Scheme ℝ} (ha : (s.levels.map (·.1)).Nodup) {a b i : Nat} {l : Level ℝ}
    {g : Gamma ℝ} (hl : (a, l) ∈ s.levels) (h2 : 2 ≤ l.gammas.length) (hg : l.gammas[i]? = some g)
    (hb : g.dest = some b) {u c phi : ℝ} {us : List ℝ} {is : List Nat} :
    Followed s a (u :: c :: phi :: us) (i :: is) ↔
      (((intensities l).take i).sum < u * (intensities l).sum ∧
        u * (intensities l).sum ≤ ((intensities l).take (i + 1)).sum) ∧ Followed s b us is := by
  refine ⟨fun h => ?_, fun h => .choice hl h2 hg hb h.1.1 h.1.2 h.2⟩
  cases h with
  | only h1 h3 =>
    cases level_unique ha hl h1
    rw [h3] at h2
    simp at h2
  | choice h1 _ h3 h4 h5 h6 h7 =>
    cases level_unique ha hl h1
    rw [hg] at h3
    cases h3
    rw [hb] at h4
    cases h4
    exact ⟨⟨h5, h6⟩, h7⟩

/-- **C127**, routes: with independent uniform numbers, the probability of a route is the
product of the branching ratios of its gammas. -/
theorem C127_route {s : Scheme ℝ} (ha : (s.levels.map (·.1)).Nodup) (hI : Intense s) {a : Nat}
    {is : List Nat} {p : ℝ} (h : Way s a is p) {N : Nat} (hN : 3 * is.length ≤ N) :
    draws N {d | Followed s a (List.ofFn d) is} = ENNReal.ofReal p := by
  induction h generalizing N with
  | stop hl hg =>
    have : {d : Fin N → ℝ | Followed s _ (List.ofFn d) []} = Set.univ :=
      Set.eq_univ_of_forall fun d => .stop hl hg
    rw [this]; simp
  | @step a b i l g is p hl hg hb _ ih =>
    rw [List.length_cons] at hN
    have hpos : l.gammas ≠ [] := by intro h; rw [h] at hg; simp at hg
    obtain ⟨h0, h1⟩ := hI _ hl
    have hsum := h1 hpos
    dsimp only at h0 hsum
    have hgi : 0 ≤ g.ri := h0 g (List.mem_of_getElem? hg)
    rw [ENNReal.ofReal_mul (div_nonneg hgi hsum.le)]
    by_cases h2 : 2 ≤ l.gammas.length
    · obtain ⟨M, rfl⟩ : ∃ M, N = M + 3 := ⟨N - 3, by omega⟩
      have hset : {d : Fin (M + 3) → ℝ | Followed s a (List.ofFn d) (i :: is)} =
          {d | d 0 ∈ {u | ((intensities l).take i).sum < u * (intensities l).sum ∧
              u * (intensities l).sum ≤ ((intensities l).take (i + 1)).sum} ∧
            (fun j : Fin (M + 2) => d j.succ) ∈ {e : Fin (M + 2) → ℝ |
              (fun j : Fin (M + 1) => e j.succ) ∈ {f : Fin (M + 1) → ℝ |
                (fun j : Fin M => f j.succ) ∈ {d : Fin M → ℝ | Followed s b (List.ofFn d) is}}}} := by
        ext d
        simp only [Set.mem_ofPred_eq, List.ofFn_succ]
        exact followed_choice ha hl h2 hg hb
      rw [hset, draws_succ, draws_skip, draws_skip, ih (by omega),
        unit_picks (x := g.ri) (by
          intro x hx
          obtain ⟨g', hg', rfl⟩ := List.mem_map.1 hx
          exact h0 g' hg') hsum (by simp [intensities, hg])]
    · obtain ⟨M, rfl⟩ : ∃ M, N = M + 2 := ⟨N - 2, by omega⟩
      obtain ⟨g', hg'⟩ : ∃ g', l.gammas = [g'] := by
        rcases hgs : l.gammas with _ | ⟨x, _ | ⟨y, t⟩⟩
        · exact absurd hgs hpos
        · exact ⟨x, rfl⟩
        · rw [hgs] at h2; simp at h2
      have hi : i = 0 ∧ g' = g := by
        rw [hg'] at hg
        cases i with
        | zero => simpa using hg
        | succ i => simp at hg
      obtain ⟨rfl, rfl⟩ := hi
      have hset : {d : Fin (M + 2) → ℝ | Followed s a (List.ofFn d) (0 :: is)} =
          {e : Fin (M + 2) → ℝ |
              (fun j : Fin (M + 1) => e j.succ) ∈ {f : Fin (M + 1) → ℝ |
                (fun j : Fin M => f j.succ) ∈ {d : Fin M → ℝ | Followed s b (List.ofFn d) is}}} := by
        ext d
        simp only [Set.mem_ofPred_eq, List.ofFn_succ]
        exact followed_only ha hl hg' hb
      rw [hset, draws_skip, draws_skip, ih (by omega)]
      have : (intensities l).sum = g'.ri := by simp [intensities, hg']
      rw [this] at hsum ⊢
      rw [div_self hsum.ne']
      simp

/-- The numbers determine the route. -/
theorem followed_unique {s : Scheme ℝ} (ha : (s.levels.map (·.1)).Nodup) (hI : Intense s) {a : Nat}
    {us : List ℝ} {is js : List Nat} (h : Followed s a us is) (k : Followed s a us js) :
    is = js := by
  induction h generalizing js with
  | stop h1 h2 =>
    cases k with
    | stop => rfl
    | only k1 k2 => cases level_unique ha h1 k1; rw [h2] at k2; simp at k2
    | choice k1 k2 => cases level_unique ha h1 k1; rw [h2] at k2; simp at k2
  | only h1 h2 h3 _ ih =>
    cases k with
    | stop k1 k2 => cases level_unique ha h1 k1; rw [h2] at k2; simp at k2
    | only k1 k2 k3 k4 =>
      cases level_unique ha h1 k1
      rw [h2] at k2; cases k2
      rw [h3] at k3; cases k3
      rw [ih k4]
    | choice k1 k2 => cases level_unique ha h1 k1; rw [h2] at k2; simp at k2
  | @choice a b i l g u c phi us is h1 h2 h3 h4 h5 h6 _ ih =>
    cases k with
    | stop k1 k2 => cases level_unique ha h1 k1; rw [k2] at h2; simp at h2
    | only k1 k2 => cases level_unique ha h1 k1; rw [k2] at h2; simp at h2
    | @choice _ b' j _ g' _ _ _ _ _ k1 k2 k3 k4 k5 k6 k7 =>
      cases level_unique ha h1 k1
      obtain ⟨m0, m1⟩ := hI _ h1
      have hw : ∀ x ∈ intensities l, 0 ≤ x := by
        intro x hx
        obtain ⟨g', hg', rfl⟩ := List.mem_map.1 hx
        exact m0 g' hg'
      have huniq : ∀ i j, ((intensities l).take i).sum < u * (intensities l).sum →
          u * (intensities l).sum ≤ ((intensities l).take (j + 1)).sum → i ≤ j := by
        intro i j hi hj
        by_contra hc
        have := sum_take_mono hw (by omega : j + 1 ≤ i)
        linarith
      have := huniq i j h5 k6
      have := huniq j i k5 h6
      obtain rfl : i = j := by omega
      rw [h3] at k3; cases k3
      rw [h4] at k4; cases k4
      rw [ih k7]

/-- The particles determine the route if the gammas of a level lead to levels of different
energies. -/
theorem chain_unique {s : Scheme ℝ} (ha : (s.levels.map (·.1)).Nodup) (hD : Distinct s) {a : Nat}
    {is js : List Nat} {re nu re' nu' : Particle ℝ} {ps : List (Particle ℝ)}
    (h : Chain s a is re ps re') (k : Chain s a js nu ps nu') (hE : re.E = nu.E)
    (hx : re.px = nu.px) (hy : re.py = nu.py) (hz : re.pz = nu.pz) (hm : re.mass = nu.mass) :
    is = js := by
  induction h generalizing js nu nu' with
  | stop =>
    cases k with
    | stop => rfl
  | @step a b i l lf g is re n1 re' p ps h1 h2 h3 h4 h5 h6 h7 h8 _ ih =>
    cases k with
    | @step _ b' j _ lf' g' js _ n2 _ _ _ k1 k2 k3 k4 k5 k6 k7 k8 k9 =>
      cases level_unique ha h1 k1
      obtain ⟨e1, e2, e3, e4⟩ := h8
      obtain ⟨f1, f2, f3, f4⟩ := k8
      have c1 : n1.E = n2.E := by linarith
      have c2 : n1.px = n2.px := by linarith
      have c3 : n1.py = n2.py := by linarith
      have c4 : n1.pz = n2.pz := by linarith
      have c5 : n1.mass = n2.mass := by
        have s1 := h6.shell
        have s2 := k6.shell
        rw [c1, c2, c3, c4] at s1
        have : n1.mass ^ 2 = n2.mass ^ 2 := by linarith
        exact (sq_eq_sq₀ h6.mass k6.mass).1 this
      have hen : lf.energy = lf'.energy := by linarith
      have hij := hD _ h1 i j g g' (b, lf) (b', lf') h2 k2 h4 k4 h3 k3 hen
      subst hij
      rw [h2] at k2; cases k2
      rw [h3] at k3; cases k3
      rw [ih k9 c1 c2 c3 c4 c5]

/-- **C127**, events: in a scheme whose gammas lead to lower levels, a cascade from the level
at `a` that is given numbers strictly between 0 and 1, three for every level below, follows the
route these numbers stand for: the photons it appends and the nucleus it leaves belong to this
route. -/
theorem C127_follows {D : Data} {s : Scheme ℝ} (ha : (s.levels.map (·.1)).Nodup) (hd : Downward s)
    (hI : Intense s) (he : ∀ l ∈ s.levels, 0 ≤ l.2.energy) {q : Int} {mAtom me : ℝ}
    (hA : Mass.atomicMassPid D.mass (Pdg.nucleusPid s.Z s.A) true = .ok (some mAtom))
    (hme : Mass.particleMass D.mass Mass.ELECTRON = .ok me) (hM : 0 < mAtom - q * me) {n a : Nat}
    {l : Level ℝ} (hl : (a, l) ∈ s.levels) {us : List ℝ} (hu : ∀ u ∈ us, 0 < u ∧ u < 1)
    (hn : s.levels.countP (fun m => decide (m.2.energy < l.energy)) < n)
    (hlen : 3 * s.levels.countP (fun m => decide (m.2.energy < l.energy)) ≤ us.length)
    {ev : Event ℝ} {ej re : Particle ℝ} {rest : List (Particle ℝ)}
    (hev : ev.final = ej :: re :: rest) (hre : OnShell re)
    (hm : re.mass = mAtom + l.energy - q * me) :
    ∃ is ps re' us', cascade exact replay D s q n a ev us =
        some ({ ev with final := ej :: re' :: (rest ++ ps) }, .ok us') ∧
      Followed s a us is ∧ Chain s a is re ps re' := by
  induction n generalizing a l us ev re rest with
  | zero => omega
  | succ n ih =>
    by_cases hg : l.gammas = []
    · refine ⟨[], [], re, us, ?_, .stop hl hg, .stop hl hg⟩
      unfold cascade
      rw [levelAt_listed ha hl]
      simp [hg, ← hev]
    · obtain ⟨m0, m1⟩ := hI _ hl
      have hsum := m1 hg
      dsimp only at m0 hsum
      have hw : ∀ x ∈ intensities l, 0 ≤ x := by
        intro x hx
        obtain ⟨g', hg', rfl⟩ := List.mem_map.1 hx
        exact m0 g' hg'
      have hpos : 0 < s.levels.countP (fun m => decide (m.2.energy < l.energy)) := by
        obtain ⟨g, t, hgs⟩ := List.exists_cons_of_ne_nil hg
        obtain ⟨m, hm, -, hlt⟩ := hd (a, l) hl g (by simp [hgs])
        exact List.countP_pos_iff.2 ⟨m, hm, by simpa using hlt⟩
      -- the choice of the gamma
      obtain ⟨i, g, c, phi, us1, hpick, hgi, hc, hus1, hl1, hfol⟩ : ∃ i g c phi us1,
          pickFrom replay (intensities l) us = .ok (i, c :: phi :: us1) ∧ l.gammas[i]? = some g ∧
          (0 < c ∧ c < 1) ∧ (∀ u ∈ us1, 0 < u ∧ u < 1) ∧ us.length ≤ us1.length + 3 ∧
          ∀ b is, g.dest = some b → Followed s b us1 is → Followed s a us (i :: is) := by
        by_cases h2 : 2 ≤ l.gammas.length
        · obtain ⟨u, c, phi, us1, rfl⟩ : ∃ u c phi us1, us = u :: c :: phi :: us1 := by
            rcases us with _ | ⟨u, _ | ⟨c, _ | ⟨phi, t⟩⟩⟩
            · simp only [List.length_cons, List.length_nil] at hlen; omega
            · simp only [List.length_cons, List.length_nil] at hlen; omega
            · simp only [List.length_cons, List.length_nil] at hlen; omega
            · exact ⟨u, c, phi, t, rfl⟩
          obtain ⟨u0, u1⟩ := hu u (by simp)
          obtain ⟨i, hi⟩ := pick_total hw hsum u
          obtain ⟨i1, i2, i3⟩ := (pick_iff hw hsum u0 u1.le i).1 hi
          have hi1 : i < l.gammas.length := by simpa [intensities] using i1
          refine ⟨i, l.gammas[i], c, phi, us1, ?_, List.getElem?_eq_getElem hi1, hu c (by simp),
            fun v hv => hu v (by simp [hv]), by simp,
            fun b is hb hf => .choice hl h2 (List.getElem?_eq_getElem hi1) hb i2 i3 hf⟩
          unfold pickFrom
          rw [if_neg (by rw [intensities, List.length_map]; omega)]
          simp [replay, hi]
        · obtain ⟨g, hg'⟩ : ∃ g', l.gammas = [g'] := by
            rcases hgs : l.gammas with _ | ⟨x, _ | ⟨y, t⟩⟩
            · exact absurd hgs hg
            · exact ⟨x, rfl⟩
            · rw [hgs] at h2; simp at h2
          obtain ⟨c, phi, us1, rfl⟩ : ∃ c phi us1, us = c :: phi :: us1 := by
            rcases us with _ | ⟨c, _ | ⟨phi, t⟩⟩
            · simp only [List.length_cons, List.length_nil] at hlen; omega
            · simp only [List.length_cons, List.length_nil] at hlen; omega
            · exact ⟨c, phi, t, rfl⟩
          refine ⟨0, g, c, phi, us1, ?_, by simp [hg'], hu c (by simp),
            fun v hv => hu v (by simp [hv]), by simp,
            fun b is hb hf => .only hl hg' hb hf⟩
          unfold pickFrom
          rw [if_pos (by simp [intensities, hg'])]
      have hgm : g ∈ l.gammas := List.mem_of_getElem? hgi
      obtain ⟨⟨b, lf⟩, hb, hdest, hlow⟩ := hd (a, l) hl g hgm
      dsimp only at hdest hlow
      have hef := he _ hb
      dsimp only at hef
      obtain ⟨ph, nu, k1, k2, k3, k4, k5, k6, -⟩ := Props.C47_conserves (t := re)
        (a := ⟨22, 0, 0, 0, 0, 0, 0⟩)
        (b := ⟨Pdg.nucleusPid s.Z s.A, mAtom + lf.energy - q * me, 0, 0, 0,
          mAtom + lf.energy - q * me, q⟩) (c := c * (1 - -1) + -1) (phi * (2 * Real.pi - 0) + 0) hre
        (by rw [hm]; linarith) le_rfl (by dsimp only; linarith)
        (by dsimp only; rw [hm]; linarith) (by nlinarith [hc.1, hc.2])
      obtain ⟨n1, n2, n3⟩ := k5
      obtain ⟨f1, f2, f3⟩ := k4
      dsimp only at n1 n2 n3 f1 f2 f3
      have hcount := countP_lt_of_lt (ls := s.levels) hlow ⟨(b, lf), hb, rfl⟩
      obtain ⟨is, ps, re', us', r1, r2, r3⟩ := ih hb hus1 (by omega) (by omega)
        (ev := emit ev nu ph) (re := nu) (rest := rest ++ [ph]) (by simp [emit, hev]) k3 n2
      refine ⟨i :: is, ph :: ps, re', us', ?_, hfol b is hdest r2,
        .step hl hgi hdest hb ⟨f1, f2, f3, k2⟩ k3 (by rw [n2, hm]; ring) k6 r3⟩
      unfold cascade
      rw [levelAt_listed ha hl]
      dsimp only
      rw [if_neg hg, show l.gammas.map (·.ri) = intensities l from rfl, hpick]
      dsimp only
      rw [hgi]
      dsimp only
      rw [hdest]
      dsimp only
      rw [levelAt_listed ha hb]
      dsimp only
      rw [hA]
      dsimp only
      rw [hme]
      dsimp only
      rw [hev]
      simp only [List.getElem?_cons_succ, List.getElem?_cons_zero]
      have e1 : uniform exact replay (-1) 1 true (c :: phi :: us1) =
          (c * (1 - -1) + -1, phi :: us1) := by simp [uniform, exact, replay]
      have e2 : uniform exact replay 0 (2 * Real.pi) false (phi :: us1) =
          (phi * (2 * Real.pi - 0) + 0, us1) := by simp [uniform, exact, replay]
      rw [e1]
      dsimp only
      rw [e2]
      dsimp only
      rw [k1]
      dsimp only
      rw [r1]
      simp [emit]

/-- Almost all numbers are strictly between 0 and 1. -/
theorem draws_inside (N : Nat) : ∀ᵐ d ∂(draws N), ∀ u ∈ List.ofFn d, 0 < u ∧ u < 1 := by
  have h1 : ∀ᵐ u ∂unit, 0 < u ∧ u < 1 := by
    have h2 : ∀ᵐ u : ℝ ∂unit, u ∈ Set.Ico (0 : ℝ) 1 := ae_restrict_mem measurableSet_Ico
    have h3 : ∀ᵐ u : ℝ ∂unit, u ≠ 0 := by
      have : ∀ᵐ u : ℝ ∂volume, u ≠ 0 := by
        simp [ae_iff]
      exact ae_restrict_of_ae this
    filter_upwards [h2, h3] with u h2 h3
    exact ⟨lt_of_le_of_ne h2.1 (Ne.symm h3), h2.2⟩
  have h : ∀ᵐ d ∂(draws N), ∀ i, 0 < d i ∧ d i < 1 := by
    rw [ae_all_iff]
    intro i
    exact (Measure.quasiMeasurePreserving_eval (fun _ : Fin N => unit) i).ae h1
  filter_upwards [h] with d hd u hu
  obtain ⟨i, rfl⟩ := (List.mem_ofFn' d u).1 hu
  exact hd i

/-- **C127**, law: if moreover the gammas of a level lead to levels of different energies, the
probability that the particles a cascade leaves in the event belong to a route is the product
of the branching ratios along it. -/
theorem C127_law {D : Data} {s : Scheme ℝ} (ha : (s.levels.map (·.1)).Nodup) (hd : Downward s)
    (hI : Intense s) (hD : Distinct s) (he : ∀ l ∈ s.levels, 0 ≤ l.2.energy) {q : Int}
    {mAtom me : ℝ}
    (hA : Mass.atomicMassPid D.mass (Pdg.nucleusPid s.Z s.A) true = .ok (some mAtom))
    (hme : Mass.particleMass D.mass Mass.ELECTRON = .ok me) (hM : 0 < mAtom - q * me) {n a : Nat}
    {l : Level ℝ} (hl : (a, l) ∈ s.levels) {N : Nat} (hn : s.levels.length < n)
    (hN : 3 * s.levels.length ≤ N) {ev : Event ℝ} {ej re : Particle ℝ} {rest : List (Particle ℝ)}
    (hev : ev.final = ej :: re :: rest) (hre : OnShell re)
    (hm : re.mass = mAtom + l.energy - q * me) {is : List Nat} {p : ℝ} (hp : Way s a is p) :
    draws N {d | ∃ ps re' us', cascade exact replay D s q n a ev (List.ofFn d) =
        some ({ ev with final := ej :: re' :: (rest ++ ps) }, .ok us') ∧
      Chain s a is re ps re'} = ENNReal.ofReal p := by
  have hle : s.levels.countP (fun m => decide (m.2.energy < l.energy)) ≤ s.levels.length :=
    List.countP_le_length
  have hlen : is.length ≤ s.levels.length :=
    (way_length hd ha hp hl).trans hle
  rw [← C127_route ha hI hp (N := N) (by omega)]
  apply measure_congr
  filter_upwards [draws_inside N] with d hu
  obtain ⟨js, ps, re', us', h1, h2, h3⟩ := C127_follows ha hd hI he hA hme hM hl hu
    (n := n) (by omega) (by rw [List.length_ofFn]; omega) hev hre hm
  apply propext
  constructor
  · rintro ⟨ps', re'', us'', k1, k2⟩
    rw [h1] at k1
    simp only [Option.some.injEq, Prod.mk.injEq, Event.mk.injEq, List.cons.injEq,
      List.append_cancel_left_eq, true_and] at k1
    obtain ⟨⟨⟨-, rfl⟩, -⟩, -⟩ := k1
    have := chain_unique ha hD k2 h3 rfl rfl rfl rfl rfl
    rw [this]
    exact h2
  · intro k
    have hk : Followed s a (List.ofFn d) is := k
    rw [followed_unique ha hI hk h2]
    exact ⟨ps, re', us', h1, h3⟩

/-! ### An example -/

/-- Levels at 0, 1 and 3; the highest one decays to the middle one in three cases out of four. -/
def exLadder : Scheme ℝ := ⟨19, 40, [(1, ⟨0, 0, ⟨true⟩, []⟩), (2, ⟨1, 4, ⟨false⟩, [⟨1, 1, some 1⟩]⟩),
  (0, ⟨3, 2, ⟨true⟩, [⟨2, 3, some 2⟩, ⟨3, 1, some 1⟩]⟩)], 3⟩

/-- Atoms of mass 100 and electrons of mass 1/2. -/
noncomputable def ladderData : Data where
  mass := ⟨fun _ => some (1 / 2 / Mass.microAmu), fun _ => some (100 / Mass.microAmu)⟩
  frags := []
  scheme := fun _ => .ok none
  optical := fun _ _ _ _ _ _ => 0
  density := fun _ _ _ _ => 0
  strength := fun _ _ _ _ => 0
  fragLMax := 0
  gamLMax := 0

theorem ladder_nodup : (exLadder.levels.map (·.1)).Nodup := by simp [exLadder]

theorem ladder_down : Downward exLadder := by simp [Downward, exLadder]

theorem ladder_intense : Intense exLadder := by
  simp [Intense, exLadder, intensities]
  norm_num

theorem ladder_distinct : Distinct exLadder := by
  intro x hx i j g h y z hi hj hy hz hg hh hyz
  have hlen : ∀ k m, x.2.gammas[k]? = some m → k < 2 := by
    intro k m hk
    have := (List.getElem?_eq_some_iff.1 hk).1
    simp only [exLadder, List.mem_cons, List.not_mem_nil, or_false] at hx
    rcases hx with rfl | rfl | rfl <;> simp at this ⊢ <;> omega
  have hi2 := hlen i g hi
  have hj2 := hlen j h hj
  simp only [exLadder, List.mem_cons, List.not_mem_nil, or_false] at hx hy hz
  interval_cases i <;> interval_cases j <;> first
    | rfl
    | (rcases hx with rfl | rfl | rfl <;> simp at hi hj
       subst hi hj
       rcases hy with rfl | rfl | rfl <;> simp at hg
       rcases hz with rfl | rfl | rfl <;> simp at hh hyz)

theorem ladder_way : Way exLadder 0 [0, 0] (3 / 4) := by
  have h1 : Way exLadder 1 [] 1 :=
    .stop (l := ⟨0, 0, ⟨true⟩, []⟩) (by simp [exLadder]) rfl
  have h2 := Way.step (s := exLadder) (a := 2) (b := 1) (i := 0) (l := ⟨1, 4, ⟨false⟩, [⟨1, 1, some 1⟩]⟩)
    (g := ⟨1, 1, some 1⟩) (by simp [exLadder]) rfl rfl h1
  have h3 := Way.step (s := exLadder) (a := 0) (b := 2) (i := 0)
    (l := ⟨3, 2, ⟨true⟩, [⟨2, 3, some 2⟩, ⟨3, 1, some 1⟩]⟩)
    (g := ⟨2, 3, some 2⟩) (by simp [exLadder]) rfl rfl h2
  have e : (3 : ℝ) / (intensities ⟨3, 2, ⟨true⟩, [⟨2, 3, some 2⟩, ⟨3, 1, some 1⟩]⟩).sum *
      (1 / (intensities ⟨1, 4, ⟨false⟩, [⟨1, 1, some 1⟩]⟩).sum * 1) = 3 / 4 := by
    norm_num [intensities]
  rw [← e]
  exact h3

-- two photons in a row in three cases out of four
example : draws 9 {d | Followed exLadder 0 (List.ofFn d) [0, 0]} = ENNReal.ofReal (3 / 4) :=
  C127_route ladder_nodup ladder_intense ladder_way (by simp)

theorem ladder_masses : Mass.atomicMassPid ladderData.mass (Pdg.nucleusPid 19 40) true =
      .ok (some 100) ∧ Mass.particleMass ladderData.mass Mass.ELECTRON = .ok (1 / 2) := by
  have h : Mass.microAmu ≠ 0 := by norm_num [Mass.microAmu]
  constructor
  · simp [Mass.atomicMassPid, Mass.lookupPid, ladderData, Mass.toMeV]
    field_simp
  · simp [Mass.particleMass, Mass.ELECTRON, ladderData]
    field_simp

-- an ion of charge 1 at rest in the highest level
example : draws 9 {d | ∃ ps re' us', cascade exact replay ladderData exLadder 1 4 0
      ⟨[], [⟨11, 1, 0, 0, 0, 1, -1⟩, ⟨1000190400, 102.5, 0, 0, 0, 102.5, 1⟩], 3, 2, ⟨true⟩⟩
      (List.ofFn d) = some (⟨[], ⟨11, 1, 0, 0, 0, 1, -1⟩ :: re' :: ([] ++ ps), 3, 2, ⟨true⟩⟩, .ok us') ∧
    Chain exLadder 0 [0, 0] ⟨1000190400, 102.5, 0, 0, 0, 102.5, 1⟩ ps re'} =
      ENNReal.ofReal (3 / 4) :=
  C127_law ladder_nodup ladder_down ladder_intense ladder_distinct (by simp [exLadder])
    ladder_masses.1 ladder_masses.2 (by norm_num) (l := ⟨3, 2, ⟨true⟩, [⟨2, 3, some 2⟩, ⟨3, 1, some 1⟩]⟩)
    (by simp [exLadder]) (by simp [exLadder]) (by simp [exLadder]) rfl
    ⟨by norm_num, by norm_num, by norm_num⟩ (by norm_num) ladder_way

-- the hypotheses of `C127_follows` are met by nine numbers equal to 1/2
example : ∃ is ps re' us', cascade exact replay ladderData exLadder 1 4 0
      ⟨[], [⟨11, 1, 0, 0, 0, 1, -1⟩, ⟨1000190400, 102.5, 0, 0, 0, 102.5, 1⟩], 3, 2, ⟨true⟩⟩
      (List.replicate 9 (1 / 2)) =
        some (⟨[], ⟨11, 1, 0, 0, 0, 1, -1⟩ :: re' :: ([] ++ ps), 3, 2, ⟨true⟩⟩, .ok us') ∧
    Followed exLadder 0 (List.replicate 9 (1 / 2)) is ∧
    Chain exLadder 0 is ⟨1000190400, 102.5, 0, 0, 0, 102.5, 1⟩ ps re' :=
  C127_follows ladder_nodup ladder_down ladder_intense (by simp [exLadder])
    ladder_masses.1 ladder_masses.2 (by norm_num) (l := ⟨3, 2, ⟨true⟩, [⟨2, 3, some 2⟩, ⟨3, 1, some 1⟩]⟩)
    (by simp [exLadder]) (by intro u hu; rw [List.eq_of_mem_replicate hu]; norm_num)
    (lt_of_le_of_lt List.countP_le_length (by simp [exLadder]))
    ((Nat.mul_le_mul_left 3 List.countP_le_length).trans (by simp [exLadder])) rfl
    ⟨by norm_num, by norm_num, by norm_num⟩ (by norm_num)

end Marley.Props
