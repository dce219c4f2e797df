import Verif.Props.CrossSection
import Verif.Props.AngleLaw
import Verif.Props.CascadeLaw

/-!
# C128: the law of nuclear events
-/

set_option autoImplicit false

namespace Marley.Props
open Marley Marley.Reaction Marley.Sampling Marley.Kin Marley.Xs MeasureTheory

/-- The total cross section as the sum of the weights. -/
theorem total_weights {fermi : Nuc → Val → Val} {n : Nuc} (hn : n.Good) {KEa t : ℝ}
    (ht : n.totalXs fermi n.pdgA KEa = .ok t) (hpos : 0 < t) :
    0 < KEa ∧ threshold (n.masses 0) ≤ KEa ∧
      ∃ w, partials fermi n KEa none n.elements = .ok w ∧ w.sum = t := by
  have hK : 0 < KEa := by
    by_contra h
    rw [C37_zero hn (Or.inr (Or.inl (not_lt.1 h)))] at ht
    cases ht
    exact lt_irrefl _ hpos
  have hT : threshold (n.masses 0) ≤ KEa := by
    by_contra h
    rw [C37_zero hn (Or.inr (Or.inr (not_le.1 h)))] at ht
    cases ht
    exact lt_irrefl _ hpos
  refine ⟨hK, hT, ?_⟩
  unfold Nuc.totalXs summed at ht
  rw [if_neg (by simp)] at ht
  simp only [Bool.false_eq_true, if_false] at ht
  rw [if_neg (not_le.2 hK)] at ht
  cases h : partials fermi n KEa none n.elements with
  | error e => rw [h] at ht; cases ht
  | ok w => rw [h] at ht; cases ht; exact ⟨w, rfl, rfl⟩

/-- What is chosen, in terms of the weights. -/
theorem choose_eq {E : Env (List ℝ)} {n : Nuc} {KEa : ℝ} (hK : 0 < KEa)
    (hT : threshold (n.masses 0) ≤ KEa) {w : List ℝ}
    (hw : partials E.fermi n KEa none n.elements = .ok w) (hpos : 0 < w.sum) (g : List ℝ) :
    n.choose E n.pdgA KEa g = match pickFrom E.engine w g with
      | .error e => .error e
      | .ok (i, g) => match n.elements[i]? with
        | none => .error .outOfRange
        | some m => .ok (m, g) := by
  unfold Nuc.choose summed
  rw [if_neg (by simp), if_neg (not_lt.2 hT), if_neg (by simp)]
  simp only [Bool.false_eq_true, if_false]
  rw [if_neg (not_le.2 hK), hw]
  have hne : w.isEmpty = false := by
    cases w with
    | nil => simp at hpos
    | cons => rfl
  simp only [hne, Bool.false_eq_true, if_false]
  rw [if_neg (not_le.2 hpos)]
  cases pickFrom E.engine w g with
  | error e => rfl
  | ok q =>
    obtain ⟨i, g'⟩ := q
    dsimp only
    cases n.elements[i]? <;> rfl

theorem partial_unique {fermi : Nuc → Val → Val} {n : Nuc} {KEa x y : ℝ} {m : MatEl}
    (h : Partial fermi n KEa m x) (k : Partial fermi n KEa m y) : x = y := by
  obtain ⟨v, b, h1, h2⟩ := h
  obtain ⟨v', b', k1, k2⟩ := k
  rw [h1] at k1
  cases k1
  rcases h2 with rfl | ⟨rfl, rfl⟩ <;> rcases k2 with k2 | ⟨k2, rfl⟩ <;> cases k2 <;> rfl

/-- **C128**, transitions: for a reaction without repeated transitions, none of them with a
strength of zero, with levels in order, the probability that a transition is chosen is its
partial cross section divided by the total cross section. -/
theorem C128_transition {E : Env (List ℝ)} (hEe : E.engine = replay) {n : Nuc} (hn : n.Good)
    (hs : n.Sorted) (hd : n.elements.Nodup) (hf : ∀ b, (E.fermi n b).NonNeg)
    (hz : ∀ m ∈ n.elements, m.strength ≠ 0) {KEa t : ℝ}
    (ht : n.totalXs E.fermi n.pdgA KEa = .ok t) (hpos : 0 < t) {m : MatEl} (hm : m ∈ n.elements)
    {x : ℝ} (hx : Partial E.fermi n KEa m x) (rest : List ℝ) :
    unit {u | ∃ g, n.choose E n.pdgA KEa (u :: rest) = .ok (m, g)} = ENNReal.ofReal (x / t) := by
  obtain ⟨hK, hT, w, hw, rfl⟩ := total_weights hn ht hpos
  have hw0 := partials_nonneg hn hK.le hf n.elements (fun _ h => h) hw
  obtain ⟨j, hj, rfl⟩ := List.getElem_of_mem hm
  have hget : n.elements[j]? = some n.elements[j] := List.getElem?_eq_getElem hj
  have hset : {u : ℝ | ∃ g, n.choose E n.pdgA KEa (u :: rest) = .ok (n.elements[j], g)}
      = {u | ∃ g, pickFrom replay w (u :: rest) = .ok (j, g)} := by
    ext u
    simp only [Set.mem_ofPred_eq, choose_eq hK hT hw hpos, hEe]
    constructor
    · rintro ⟨g, h⟩
      cases hp : pickFrom replay w (u :: rest) with
      | error e => rw [hp] at h; cases h
      | ok q =>
        obtain ⟨i, g'⟩ := q
        rw [hp] at h
        dsimp only at h
        cases hi : n.elements[i]? with
        | none => rw [hi] at h; cases h
        | some m' =>
          rw [hi] at h
          simp only [Except.ok.injEq, Prod.mk.injEq] at h
          obtain ⟨rfl, rfl⟩ := h
          obtain ⟨hi', hi2⟩ := List.getElem?_eq_some_iff.1 hi
          have : i = j := (hd.getElem_inj_iff).1 hi2
          rw [this]
          exact ⟨_, rfl⟩
    · rintro ⟨g, h⟩
      rw [h]
      exact ⟨g, by dsimp only; rw [hget]⟩
  rw [hset]
  by_cases hr : n.Reaches KEa n.elements[j]
  · have hlt : j < w.length :=
      partials_complete hn hK.le _ hz hs hw hget ((reaches_iff hn hK.le _).1 hr)
    have hwj : w[j]? = some w[j] := List.getElem?_eq_getElem hlt
    obtain ⟨m', k1, -, k3⟩ := partials_get _ hz hw hwj
    rw [hget] at k1
    cases k1
    have hxe : x = w[j] := partial_unique hx k3
    rw [← hxe] at hwj
    by_cases hl : w.length < 2
    · have hj0 : j = 0 := by omega
      have hw1 : w = [x] := by
        obtain ⟨y, rfl⟩ := List.length_eq_one_iff.1 (by omega : w.length = 1)
        subst hj0
        simp at hwj
        rw [hwj]
      have : {u | ∃ g, pickFrom replay w (u :: rest) = .ok (j, g)} = Set.univ := by
        refine Set.eq_univ_of_forall fun u => ⟨u :: rest, ?_⟩
        unfold pickFrom
        rw [if_pos hl, hj0]
      rw [this, hw1]
      rw [hw1] at hpos
      simp only [List.sum_cons, List.sum_nil, add_zero] at hpos ⊢
      rw [div_self hpos.ne']
      simp
    · rw [← unit_picks hw0 hpos hwj]
      unfold unit
      rw [Measure.restrict_apply' measurableSet_Ico, Measure.restrict_apply' measurableSet_Ico]
      have hnn : 0 ≤ (w.take j).sum := List.sum_nonneg fun y hy => hw0 y (List.mem_of_mem_take hy)
      -- they differ at most in the number zero
      apply measure_congr
      have h0 : ∀ᵐ u : ℝ ∂volume, u ≠ 0 := by simp [ae_iff]
      filter_upwards [h0] with u hu
      apply propext
      constructor
      · rintro ⟨⟨g, h⟩, h3, h4⟩
        refine ⟨?_, h3, h4⟩
        have hu0 : 0 < u := lt_of_le_of_ne h3 (Ne.symm hu)
        unfold pickFrom at h
        rw [if_neg hl] at h
        simp only [replay, List.headD_cons] at h
        cases hp : pick w u with
        | error e => rw [hp] at h; cases h
        | ok i =>
          rw [hp] at h
          cases h
          exact ((pick_iff hw0 hpos hu0 h4.le _).1 hp).2
      · rintro ⟨h, h3, h4⟩
        refine ⟨⟨rest, ?_⟩, h3, h4⟩
        have hu0 : 0 < u := lt_of_le_of_ne h3 (Ne.symm hu)
        unfold pickFrom
        rw [if_neg hl]
        simp only [replay, List.headD_cons, List.tail_cons]
        rw [(pick_iff hw0 hpos hu0 h4.le j).2 ⟨hlt, h⟩]
  · have hx0 : x = 0 := by
      obtain ⟨v, b, h1, h2⟩ := hx
      rw [C37_inaccessible hn hK.le hr] at h1
      cases h1
      rcases h2 with h2 | ⟨h2, -⟩
      · cases h2; rfl
      · cases h2
    have : {u | ∃ g, pickFrom replay w (u :: rest) = .ok (j, g)} ⊆ (Set.Ico 0 1)ᶜ := by
      rintro u ⟨g, h⟩ hu
      have hne : w ≠ [] := by rintro rfl; simp at hpos
      have hlt : j < w.length := by
        unfold pickFrom at h
        split_ifs at h with hl
        · cases h
          exact List.length_pos_iff.2 hne
        · simp only [replay, List.headD_cons] at h
          cases hp : pick w u with
          | error e => rw [hp] at h; cases h
          | ok i =>
            rw [hp] at h
            cases h
            exact pick_lt hu hp hne
      obtain ⟨m', k1, k2⟩ := partials_reach hw hlt
      rw [hget] at k1
      cases k1
      exact hr ((reaches_iff hn hK.le _).2 k2)
    rw [hx0, zero_div, ENNReal.ofReal_zero]
    refine measure_mono_null this ?_
    unfold unit
    rw [Measure.restrict_apply' measurableSet_Ico]
    simp

/-- The density of the cosine for a transition and the speed of the ejectile. -/
noncomputable def cosLaw (m : MatEl) (beta c : ℝ) : ℝ :=
  if m.type = 0 then (1 + beta * c) / 2 else (3 - beta * c) / 6

/-- Spin and parity are only copied into the event. -/
theorem makeEvent_spin (r : Masses) (KEa : ℝ) (sc : Scatter) (c phi Ex : ℝ) (J : Int) (P : Parity) :
    makeEvent r KEa sc c phi Ex J P =
      (makeEvent r KEa sc c phi Ex 0 ⟨true⟩).map fun ev => { ev with twoJ := J, parity := P } := by
  unfold makeEvent
  simp only
  split
  · split <;> rfl
  all_goals rfl

theorem makeEvent_two {r : Masses} {KEa : ℝ} {sc : Scatter} {c phi Ex : ℝ} {J : Int} {P : Parity}
    {ev : Event ℝ} (h : makeEvent r KEa sc c phi Ex J P = .ok ev) :
    (∃ a b, ev.initial = [a, b]) ∧ ∃ a b, ev.final = [a, b] := by
  unfold makeEvent at h
  simp only at h
  repeat' split at h
  all_goals first
    | (cases h; done)
    | (cases h; exact ⟨⟨_, _, rfl⟩, _, _, rfl⟩)

theorem setCharges_ejectile {n : Nuc} {ev : Event ℝ} (hi : ∃ a b, ev.initial = [a, b])
    (hf : ∃ a b, ev.final = [a, b]) : ∃ ev', setCharges n ev = .ok ev' ∧ ev'.Ex = ev.Ex ∧
      ∀ T, ev' ∈ ejectileIn T ↔ ev ∈ ejectileIn T := by
  obtain ⟨a, b, hi⟩ := hi
  obtain ⟨c, d, hf⟩ := hf
  refine ⟨{ ev with initial := [a, { b with charge := 0 }], final := [c, { d with charge := n.qD }] },
    ?_, rfl, fun T => ?_⟩
  · unfold setCharges Event.setChargeAt
    rw [hi, hf]
    rfl
  · simp only [ejectileIn, Set.mem_ofPred_eq, hf]
    constructor
    · rintro ⟨e, l, h1, h2⟩
      cases h1
      exact ⟨_, _, rfl, h2⟩
    · rintro ⟨e, l, h1, h2⟩
      cases h1
      exact ⟨_, _, rfl, h2⟩

/-- The speed of the ejectile of a level that can be reached. -/
theorem beta_bounds {n : Nuc} (hn : n.Good) {KEa : ℝ} (hK : 0 < KEa) {m : MatEl}
    (hm : m ∈ n.elements) (hr : n.Reaches KEa m) {beta : ℝ}
    (hb : Utils.fdiv (twoTwoScatter (n.masses m.levelEnergy) KEa).pc
      (twoTwoScatter (n.masses m.levelEnergy) KEa).Ec = some beta) : 0 ≤ beta ∧ beta ≤ 1 := by
  have ha := hn.a
  have hb' := hn.b
  have hc := hn.c
  have hd := hn.d
  have he := hn.energy m hm
  unfold Utils.fdiv at hb
  split_ifs at hb with h0
  simp only [Option.some.injEq] at hb
  set s := (n.ma + n.mb) ^ 2 + 2 * n.mb * KEa with hs
  have hs0 : 0 < s := by positivity
  have hse : n.ma * n.ma + n.mb * n.mb + 2 * n.mb * (KEa + n.ma) = s := by rw [hs]; ring
  have hE : (twoTwoScatter (n.masses m.levelEnergy) KEa).Ec
      = (s + n.mc * n.mc - (n.md + m.levelEnergy) * (n.md + m.levelEnergy)) / (2 * Real.sqrt s) := by
    simp only [twoTwoScatter, Nuc.masses, hse]
  have hp : (twoTwoScatter (n.masses m.levelEnergy) KEa).pc
      = Utils.realSqrt ((twoTwoScatter (n.masses m.levelEnergy) KEa).Ec ^ 2 - n.mc * n.mc) := rfl
  have hq : (n.mc + (n.md + m.levelEnergy)) ^ 2 ≤ s := by
    have := pow_le_pow_left₀ (by positivity) hr 2
    rwa [Real.sq_sqrt hs0.le] at this
  have hE0 : 0 ≤ (twoTwoScatter (n.masses m.levelEnergy) KEa).Ec := by
    rw [hE]
    refine div_nonneg ?_ (by positivity)
    nlinarith [mul_nonneg hc hd.le, mul_nonneg hc he, mul_nonneg hc hc]
  have hE1 : 0 < (twoTwoScatter (n.masses m.levelEnergy) KEa).Ec := lt_of_le_of_ne hE0 (Ne.symm h0)
  set Ec := (twoTwoScatter (n.masses m.levelEnergy) KEa).Ec with hEc
  have hp2 : 0 ≤ (twoTwoScatter (n.masses m.levelEnergy) KEa).pc ∧
      (twoTwoScatter (n.masses m.levelEnergy) KEa).pc ≤ Ec := by
    rw [hp]
    unfold Utils.realSqrt
    split_ifs with h
    · exact ⟨le_refl _, hE0⟩
    · refine ⟨Real.sqrt_nonneg _, Real.sqrt_le_iff.2 ⟨hE0, ?_⟩⟩
      nlinarith [mul_nonneg hc hc]
  rw [← hb]
  exact ⟨div_nonneg hp2.1 hE0, (div_le_one hE1).2 hp2.2⟩

/-- The law of cosine and azimuth. -/
theorem cos_phi_law {E : Env (List ℝ)} (hEa : E.arith = exact) (hEe : E.engine = replay)
    {m : MatEl} (ht : m.type = 0 ∨ m.type = 1) {beta : ℝ} (h0 : 0 ≤ beta) (h1 : beta ≤ 1)
    {B : Set (ℝ × ℝ)} (hB : MeasurableSet B) :
    iid E.fuel {d | ∃ c g, sampleCos E m beta (stream d) = some (.ok (c, g)) ∧
        (c, (replay.draw g).1) ∈ B}
      = ENNReal.ofReal
        ((1 - (1 - 1 / (2 * if m.type = 0 then (1 + beta) / 2 else (3 + beta) / 6)) ^ E.fuel)
          * ∫ c in Set.Icc (-1) 1, (chance B c).toReal * cosLaw m beta c) := by
  have hd : ∀ c, cosDensity m c beta = .ok (cosLaw m beta c) := by
    intro c
    unfold cosDensity
    rw [cosPdf_num ht]
    rfl
  set M := if m.type = 0 then (1 + beta) / 2 else (3 + beta) / 6 with hM
  have hmax : cosMax m beta = .ok M := by
    unfold cosMax
    by_cases h : m.type = 0
    · rw [if_pos h, hd, cosLaw, if_pos h, hM, if_pos h, mul_one]
    · rw [if_neg h, if_pos (ht.resolve_left h), hd, cosLaw, if_neg h, hM, if_neg h]
      congr 1; ring
  have hint : ∫ c in Set.Icc (-1 : ℝ) 1, cosLaw m beta c = 1 := by
    rw [integral_Icc_eq_integral_Ioc, ← intervalIntegral.integral_of_le (by norm_num)]
    exact cosPdf_integral _ _
  have hv : Measurable fun c : ℝ => cosLaw m beta c := by
    unfold cosLaw
    by_cases h : m.type = 0
    · simp only [if_pos h]
      fun_prop
    · simp only [if_neg h]
      fun_prop
  have hr : ∀ c ∈ Set.Icc (-1 : ℝ) 1, 0 ≤ cosLaw m beta c ∧ cosLaw m beta c ≤ M := by
    rintro c ⟨k1, k2⟩
    unfold cosLaw
    rw [hM]
    split_ifs <;> constructor <;> nlinarith
  have hm : 0 < M := by
    rw [hM]
    split_ifs <;> linarith
  have h := loop_law (σ := Unit) (f := fun c _ => (cosDensity m c beta).map (·, ())) (safety := 1.01)
    (I := fun _ => True) (by norm_num : (-1 : ℝ) < 1) hm hv hr
    (fun x _ st _ => ⟨(), by simp only [hd]; rfl, trivial⟩) hB E.fuel () trivial
  have hset : {d : (Fin E.fuel → ℝ × ℝ) × ℝ | ∃ c g, sampleCos E m beta (stream d) = some (.ok (c, g)) ∧
        (c, (replay.draw g).1) ∈ B}
      = {d | ∃ r_1, rejectLoop exact replay (fun c (_ : Unit) => (cosDensity m c beta).map (·, ()))
          (-1) 1 1.01 E.fuel M (stream d) () = some (.ok r_1) ∧
          (r_1.x, (replay.draw r_1.gen).1) ∈ B} := by
    ext d
    simp only [sampleCos, hmax, hEa, hEe, rejectionSample, Set.mem_ofPred_eq]
    constructor
    · rintro ⟨c, g, hs, hc⟩
      split at hs
      · cases hs
      · cases hs
      · rename_i r hr
        cases hs
        exact ⟨r, hr, hc⟩
    · rintro ⟨r, hr, hc⟩
      exact ⟨r.x, r.gen, by rw [hr], hc⟩
  rw [hset, h, ← geometric]
  congr 1
  have hsh : share (fun c => cosLaw m beta c) (-1) 1 M = 1 / (2 * M) := by
    rw [share, hint]
    congr 1; ring
  rw [hsh]
  field_simp
  ring

theorem iid_all (n : Nat) : ∀ᵐ d ∂(iid n), ∀ u ∈ stream d, u ∈ Set.Ico (0 : ℝ) 1 := by
  have h1 : ∀ i, MeasurePreserving (fun d : (Fin n → ℝ × ℝ) × ℝ => (d.1 i).2) (iid n) unit :=
    fun i => measurePreserving_snd.comp
      ((measurePreserving_eval (fun _ : Fin n => unit.prod unit) i).comp measurePreserving_fst)
  have h2 : ∀ᵐ d ∂(iid n), ∀ i, (d.1 i).2 ∈ Set.Ico (0 : ℝ) 1 :=
    ae_all_iff.2 fun i =>
      (h1 i).quasiMeasurePreserving.ae (ae_restrict_mem measurableSet_Ico)
  have h3 : ∀ᵐ d ∂(iid n), d.2 ∈ Set.Ico (0 : ℝ) 1 :=
    (measurePreserving_snd (μ := Measure.pi fun _ : Fin n => unit.prod unit)
      (ν := unit)).quasiMeasurePreserving.ae (ae_restrict_mem measurableSet_Ico)
  filter_upwards [iid_mem n, h2, h3] with d a b c u hu
  unfold stream at hu
  simp only [List.mem_append, List.mem_flatMap, List.mem_ofFn, List.mem_cons, List.not_mem_nil,
    or_false] at hu
  rcases hu with ⟨p, ⟨i, rfl⟩, rfl | rfl⟩ | rfl
  · exact a i
  · exact b i
  · exact c

theorem uniform_rest {A : Arith} {lo hi : ℝ} {b : Bool} {g : List ℝ} {v : ℝ}
    (h : v ∈ (uniform A replay lo hi b g).2) : v ∈ g := List.mem_of_mem_tail h

theorem rejectLoop_rest {A : Arith} {σ : Type} {f : ℝ → σ → Res (ℝ × σ)} {xmin xmax safety : ℝ} :
    ∀ (n : Nat) (fmax : ℝ) (g : List ℝ) (st : σ) {r : Sampled (List ℝ) σ},
      rejectLoop A replay f xmin xmax safety n fmax g st = some (.ok r) → ∀ v ∈ r.gen, v ∈ g := by
  intro n
  induction n with
  | zero => intro fmax g st r h; cases h
  | succ n ih =>
    intro fmax g st r h v hv
    unfold rejectLoop at h
    dsimp only at h
    split at h
    · cases h
    · split at h
      · exact uniform_rest (uniform_rest (ih _ _ _ h v hv))
      · cases h
        exact List.mem_of_mem_tail (List.mem_of_mem_tail hv)

theorem sampleCos_rest {E : Env (List ℝ)} (hE : E.engine = replay) {m : MatEl} {beta : ℝ}
    {g : List ℝ} {c : ℝ} {g' : List ℝ} (h : sampleCos E m beta g = some (.ok (c, g'))) :
    ∀ v ∈ g', v ∈ g := by
  unfold sampleCos at h
  rw [hE] at h
  split at h
  · cases h
  · split at h
    · cases h
    · cases h
    · rename_i hr
      cases h
      exact rejectLoop_rest _ _ _ _ hr

theorem replay_mem {g : List ℝ} (h : ∀ v ∈ g, v ∈ Set.Ico (0 : ℝ) 1) :
    0 ≤ (replay.draw g).1 ∧ (replay.draw g).1 < 1 := by
  cases g with
  | nil => simp [replay]
  | cons v g => exact h v (by simp)

/-- **C128**, events: for a reaction whose levels, in order, have different energies, with two
accessible transitions at least, the probability that an event within `n` trials has the
excitation energy of a transition and an ejectile with energy and momentum in `T` is the
partial cross section divided by the total one, times the probability that the transition
gives such an ejectile: the cosine is distributed as `(1 + β cos θ) / 2` or
`(3 - β cos θ) / 6`, the azimuth is uniform.  The factor with the number of trials tends to
one. -/
theorem C128_event {E : Env (List ℝ)} (hEa : E.arith = exact) (hEe : E.engine = replay)
    {n : Nuc} (hn : n.Good) (hd : n.elements.Pairwise (fun a b => a.levelEnergy < b.levelEnergy))
    (hf : ∀ b, (E.fermi n b).NonNeg) (hz : ∀ m ∈ n.elements, m.strength ≠ 0) {KEa t : ℝ}
    (ht : n.totalXs E.fermi n.pdgA KEa = .ok t) (hpos : 0 < t)
    (h2 : ∃ m, n.elements[1]? = some m ∧ n.Reaches KEa m) {m : MatEl} (hm : m ∈ n.elements)
    (hr : n.Reaches KEa m) {x : ℝ} (hx : Partial E.fermi n KEa m x) {beta : ℝ}
    (hb : Utils.fdiv (twoTwoScatter (n.masses m.levelEnergy) KEa).pc
      (twoTwoScatter (n.masses m.levelEnergy) KEa).Ec = some beta) {J : Int} {P : Parity}
    (hg : E.gs n.pdgB = .ok (J, P))
    (hsp : ∀ g, 0 ≤ (replay.draw g).1 → (replay.draw g).1 < 1 →
      ∃ J' P' g', spinParity E n m J P g = .ok (J', P', g'))
    {T : Set (ℝ × ℝ × ℝ × ℝ)} (hT : MeasurableSet T) :
    (unit.prod (iid E.fuel)) {p | ∃ ev g,
        n.createEvent E n.pdgA KEa (p.1 :: stream p.2) = some (.ok (ev, g)) ∧
        ev.Ex = m.levelEnergy ∧ ev ∈ ejectileIn T}
      = ENNReal.ofReal (x / t) * ENNReal.ofReal
        ((1 - (1 - 1 / (2 * if m.type = 0 then (1 + beta) / 2 else (3 + beta) / 6)) ^ E.fuel)
          * ∫ c in Set.Icc (-1) 1, (unit {u | ∃ ev ∈ ejectileIn T,
              makeEvent (n.masses m.levelEnergy) KEa (twoTwoScatter (n.masses m.levelEnergy) KEa) c
                (2 * Real.pi * u) m.levelEnergy 0 ⟨true⟩ = .ok ev}).toReal * cosLaw m beta c) := by
  have hs : n.Sorted := hd.imp fun h => h.le
  have hnd : n.elements.Nodup := hd.imp fun {a b} h => by rintro rfl; exact lt_irrefl _ h
  obtain ⟨hK, hTh, w, hw, hwt⟩ := total_weights hn ht hpos
  obtain ⟨hb0, hb1⟩ := beta_bounds hn hK hm hr hb
  have hl : ¬w.length < 2 := by
    obtain ⟨m2, k1, k2⟩ := h2
    have := partials_complete hn hK.le _ hz hs hw k1 ((reaches_iff hn hK.le _).1 k2)
    omega
  -- the choice takes one number
  have hone : ∀ u rest m' g, n.choose E n.pdgA KEa (u :: rest) = .ok (m', g) → g = rest := by
    intro u rest m' g h
    rw [choose_eq hK hTh hw (by rw [hwt]; exact hpos), hEe] at h
    unfold pickFrom at h
    rw [if_neg hl] at h
    simp only [replay, List.headD_cons, List.tail_cons] at h
    cases hp : pick w u with
    | error e => rw [hp] at h; cases h
    | ok i =>
      rw [hp] at h
      dsimp only at h
      cases hi : n.elements[i]? with
      | none => rw [hi] at h; cases h
      | some m'' => rw [hi] at h; cases h; rfl
  have hchoice : ∀ u rest, (∃ g, n.choose E n.pdgA KEa (u :: rest) = .ok (m, g)) →
      ∀ rest', n.choose E n.pdgA KEa (u :: rest') = .ok (m, rest') := by
    rintro u rest ⟨g, h⟩ rest'
    rw [choose_eq hK hTh hw (by rw [hwt]; exact hpos), hEe] at h ⊢
    unfold pickFrom at h ⊢
    rw [if_neg hl] at h ⊢
    simp only [replay, List.headD_cons, List.tail_cons] at h ⊢
    cases hp : pick w u with
    | error e => rw [hp] at h; cases h
    | ok i =>
      rw [hp] at h
      dsimp only at h ⊢
      cases hi : n.elements[i]? with
      | none => rw [hi] at h; cases h
      | some m'' => rw [hi] at h; cases h; rfl
  set B : Set (ℝ × ℝ) := {q | ∃ ev ∈ ejectileIn T, makeEvent (n.masses m.levelEnergy) KEa
    (twoTwoScatter (n.masses m.levelEnergy) KEa) q.1 (2 * Real.pi * q.2) m.levelEnergy 0 ⟨true⟩
      = .ok ev} with hBdef
  have hB : MeasurableSet B :=
    (show Measurable fun q : ℝ × ℝ => (q.1, 2 * Real.pi * q.2) by fun_prop)
      (ejectile_measurable _ _ _ _ _ _ hT)
  have hphi : ∀ g, (uniform exact replay 0 (2 * Real.pi) false g).1
      = 2 * Real.pi * (replay.draw g).1 := by
    intro g
    simp [uniform, exact]
    ring
  have hset : {p : ℝ × ((Fin E.fuel → ℝ × ℝ) × ℝ) | ∃ ev g,
        n.createEvent E n.pdgA KEa (p.1 :: stream p.2) = some (.ok (ev, g)) ∧
        ev.Ex = m.levelEnergy ∧ ev ∈ ejectileIn T}
      =ᵐ[unit.prod (iid E.fuel)] {u | ∃ g, n.choose E n.pdgA KEa (u :: []) = .ok (m, g)} ×ˢ
        {d | ∃ c g, sampleCos E m beta (stream d) = some (.ok (c, g)) ∧
          (c, (replay.draw g).1) ∈ B} := by
    have hall := (measurePreserving_snd (μ := unit) (ν := iid E.fuel)).quasiMeasurePreserving.ae
      (iid_all E.fuel)
    filter_upwards [hall]
    rintro ⟨u, d⟩ hin
    refine propext ?_
    change (∃ ev g, n.createEvent E n.pdgA KEa (u :: stream d) = some (.ok (ev, g)) ∧
        ev.Ex = m.levelEnergy ∧ ev ∈ ejectileIn T) ↔
      (∃ g, n.choose E n.pdgA KEa (u :: []) = .ok (m, g)) ∧
        ∃ c g, sampleCos E m beta (stream d) = some (.ok (c, g)) ∧ (c, (replay.draw g).1) ∈ B
    constructor
    · rintro ⟨ev, g', he, hEx, hev⟩
      obtain ⟨m', g1, beta', c, g2, J1, P1, J', P', ev', k1, k2, k3, k4, k5, k6, k7⟩ :=
        createEvent_parts he
      obtain ⟨hi, hfi⟩ := makeEvent_two k6
      obtain ⟨ev2, l1, l2, l3⟩ := setCharges_ejectile (n := n) hi hfi
      rw [k7] at l1
      cases l1
      have hmm : m' = m := by
        have hm' : m' ∈ n.elements := by
          obtain ⟨-, -, -, w', i, -, -, -, hi⟩ := choose_parts k1
          exact List.mem_of_getElem? hi
        have hEm : m'.levelEnergy = m.levelEnergy := by
          rw [← hEx, l2, (makeEvent_labels k6).1]
        by_contra hne
        rcases List.pairwise_iff_getElem.1 hd with hd'
        obtain ⟨i, hi, rfl⟩ := List.getElem_of_mem hm
        obtain ⟨j, hj, rfl⟩ := List.getElem_of_mem hm'
        rcases Nat.lt_trichotomy i j with h | h | h
        · exact absurd hEm (hd' i j hi hj h).ne'
        · subst h; exact hne rfl
        · exact absurd hEm (hd' j i hj hi h).ne
      subst hmm
      have hg1 := hone _ _ _ _ k1
      subst hg1
      rw [hb] at k2
      cases k2
      refine ⟨⟨_, hchoice u _ ⟨_, k1⟩ []⟩, c, g2, k3, ?_⟩
      rw [hEa, hEe, hphi, makeEvent_spin] at k6
      rw [l3] at hev
      rw [hBdef]
      simp only [Set.mem_ofPred_eq]
      cases hmk : makeEvent (n.masses m'.levelEnergy) KEa
          (twoTwoScatter (n.masses m'.levelEnergy) KEa) c (2 * Real.pi * (replay.draw g2).1)
          m'.levelEnergy 0 ⟨true⟩ with
      | error e => rw [hmk] at k6; cases k6
      | ok ev0 =>
        rw [hmk] at k6
        cases k6
        exact ⟨ev0, hev, rfl⟩
    · rintro ⟨hu, c, g2, hc, ev0, hev0, hmk⟩
      have hch := hchoice u [] hu (stream d)
      dsimp only at hmk
      obtain ⟨J', P', g', hJ⟩ := hsp (uniform exact replay 0 (2 * Real.pi) false g2).2
        (replay_mem fun v hv => hin v (sampleCos_rest hEe hc v (uniform_rest hv))).1
        (replay_mem fun v hv => hin v (sampleCos_rest hEe hc v (uniform_rest hv))).2
      obtain ⟨hi, hfi⟩ := makeEvent_two hmk
      obtain ⟨ev2, l1, l2, l3⟩ := setCharges_ejectile (n := n)
        (ev := { ev0 with twoJ := J', parity := P' }) hi hfi
      refine ⟨ev2, g', ?_, ?_, ?_⟩
      · unfold Nuc.createEvent
        rw [hch]
        dsimp only
        rw [hb]
        dsimp only
        rw [hc]
        dsimp only
        rw [hg]
        dsimp only
        rw [hEa, hEe, hJ]
        dsimp only
        rw [hphi, makeEvent_spin, hmk]
        dsimp only [Except.map]
        rw [l1]
      · rw [l2]
        exact (makeEvent_labels hmk).1
      · rw [l3]
        exact hev0
  rw [measure_congr hset, Measure.prod_prod, C128_transition hEe hn hs hnd hf hz ht hpos hm hx,
    cos_phi_law hEa hEe (hn.type m hm) hb0 hb1 hB]
  rfl

/-! ### An example -/

/-- Five trials, a target without spin. -/
noncomputable def lawEnv : Env (List ℝ) :=
  ⟨exact, replay, 5, fun _ _ => .num 1, fun _ => .ok (0, ⟨true⟩), fun _ => .error .marleyError⟩

-- both hypotheses and probabilities are not trivial for two levels, both accessible
example : ∃ x y, 0 < x ∧ 0 < y ∧
    (exNuc exElements).totalXs lawEnv.fermi 12 (3 / 2) = .ok (x + y) ∧
    unit {u | ∃ g, (exNuc exElements).choose lawEnv 12 (3 / 2) (u :: []) = .ok (⟨0, 1, 1, none⟩, g)}
      = ENNReal.ofReal (x / (x + y)) ∧
    (unit.prod (iid 5)) {p | ∃ ev g,
        (exNuc exElements).createEvent lawEnv 12 (3 / 2) (p.1 :: stream p.2) = some (.ok (ev, g)) ∧
        ev.Ex = 0 ∧ ev ∈ ejectileIn {q | q.1 < 1}}
      = ENNReal.ofReal (x / (x + y)) * ENNReal.ofReal ((1 - (1 - 1 / (2 * ((3 + 1) / 6))) ^ 5)
        * ∫ c in Set.Icc (-1) 1, (unit {u | ∃ ev ∈ ejectileIn {q | q.1 < 1},
            makeEvent ((exNuc exElements).masses 0) (3 / 2)
              (twoTwoScatter ((exNuc exElements).masses 0) (3 / 2)) c (2 * Real.pi * u) 0 0 ⟨true⟩
              = .ok ev}).toReal * cosLaw ⟨0, 1, 1, none⟩ 1 c) := by
  obtain ⟨x, y, hx, hy, hw⟩ := exElements_partials lawEnv.fermi
  have hz : ∀ m ∈ (exNuc exElements).elements, m.strength ≠ 0 := by simp [exNuc, exElements]
  have ht : (exNuc exElements).totalXs lawEnv.fermi 12 (3 / 2) = .ok (x + y) := by
    unfold Nuc.totalXs summed
    rw [if_neg (by simp [exNuc])]
    simp only [Bool.false_eq_true, if_false]
    rw [if_neg (by norm_num), show (exNuc exElements).elements = exElements from rfl, hw]
    simp [Except.map]
  obtain ⟨m, hm, h1, hp⟩ := partials_get (i := 0) _ hz hw rfl
  obtain ⟨m2, hm2, h2, -⟩ := partials_get (i := 1) _ hz hw rfl
  have hm' : m = ⟨0, 1, 1, none⟩ := by simpa [exNuc, exElements] using hm.symm
  subst hm'
  refine ⟨x, y, hx, hy, ht, ?_, ?_⟩
  · exact C128_transition (E := lawEnv) rfl exElements_good exElements_sorted
      (by simp [exNuc, exElements]) (fun b => zero_le_one) hz ht (by linarith)
      (by simp [exNuc, exElements]) hp []
  · have hs : √(4 : ℝ) = 2 := by
      rw [show (4 : ℝ) = 2 ^ 2 by norm_num]; exact Real.sqrt_sq (by norm_num)
    have h := C128_event (E := lawEnv) rfl rfl exElements_good (KEa := 3 / 2) (beta := 1)
      (by simp [exNuc, exElements, MatEl.levelEnergy]) (fun b => zero_le_one) hz ht (by linarith)
      ⟨m2, hm2, (reaches_iff exElements_good (by norm_num) _).2 h2⟩
      (by simp [exNuc, exElements]) ((reaches_iff exElements_good (by norm_num) _).2 h1) hp
      (by
        norm_num [twoTwoScatter, Nuc.masses, exNuc, MatEl.levelEnergy, Utils.fdiv, hs,
          Utils.realSqrt]
        rw [show (9 : ℝ) = 3 ^ 2 by norm_num, show (16 : ℝ) = 4 ^ 2 by norm_num,
          Real.sqrt_sq (by norm_num), Real.sqrt_sq (by norm_num)]
        norm_num)
      (J := 0) (P := ⟨true⟩) rfl (fun g _ _ => ⟨2, ⟨true⟩, g, rfl⟩)
      (T := {q | q.1 < 1}) (measurableSet_lt measurable_fst measurable_const)
    exact h

end Marley.Props
