import Verif.Spec.Macros
import Verif.Props.EventPrograms
import Mathlib.Tactic.Linarith
import Mathlib.Tactic.Ring
import Mathlib.Tactic.FieldSimp

/-!
# C113: the example macros for ROOT
-/

set_option autoImplicit false

namespace Marley.Props
open Marley Marley.Json Marley.Out Marley.RootOut Marley.Rdr Marley.Prog Marley.Macro

variable {K : Type} {σ τ : Type}

/-! ## The loop -/

/-- From here on the reader answers as the book says. -/
def FollowsBook [DivisionRing K] (F : TextFmt K) (ofLong : Int → K) (R : RootIO K) (d : OnDisk) (s : RootReader K)
    (b : Book K) (P : List Op → Prop) : Prop :=
  ∀ ops : List Op, P ops → ops.count .next ≤ b.rest.length + 1 →
    (answersRoot F ofLong R d s ops).1 = expected b ops

/-- What a loop without questions to the reader computes. -/
def runThrough (step : Event K → σ → Except Fail σ) : List (Event K) → σ → Except Fail σ
  | [], v => .ok v
  | e :: l, v => match step e v with
    | .error x => .error x
    | .ok v => runThrough step l v

theorem loop_book [DivisionRing K] {F : TextFmt K} {ofLong : Int → K} {R : RootIO K} {d : OnDisk}
    {step : Event K → σ → Except Fail σ} (l : List (Event K × K)) (s : RootReader K) (b : Book K)
    (v : σ) (hr : b.rest = l) (he : b.ended = false) (h : FollowsBook F ofLong R d s b (fun o => o.head? ≠ some .good))
    (fuel : Nat) (hfuel : l.length < fuel) :
    ∃ s1, readLoop F ofLong R d (fun s e v => (s, step e v)) fuel s v =
        some (s1, runThrough step (l.map (·.1)) v) ∧
      ∀ w, runThrough step (l.map (·.1)) v = .ok w →
        ∃ s2, fluxRoot F ofLong R d false s1 = (s2, .ok (b.atEnd * squareInverseMeV)) := by
  induction l generalizing s b v fuel with
  | nil =>
    obtain ⟨n, rfl⟩ : ∃ n, fuel = n + 1 := ⟨fuel - 1, by omega⟩
    have key := h [.next, .good, .flux false] (by simp) (by simp)
    simp only [answersRoot, expected, hr, List.cons.injEq, and_true, Bool.not_true, Bool.false_eq_true,
      if_false] at key
    obtain ⟨k1, k2, k3⟩ := key
    simp only [askRoot] at k1 k2 k3
    rcases hx : nextRoot F ofLong R d s with ⟨s1, f | ⟨m, e'⟩⟩
    · rw [hx] at k1; cases k1
    · rw [hx] at k1 k2 k3
      cases k1
      dsimp only at k2 k3
      rcases hg : goodRoot s1 with x | g
      · rw [hg] at k2; cases k2
      · rw [hg] at k2 k3
        cases k2
        dsimp only at k3
        rcases hq : fluxRoot F ofLong R d false s1 with ⟨s2, f | x⟩
        · rw [hq] at k3; cases k3
        · rw [hq] at k3
          injection k3 with k3
          subst k3
          refine ⟨s1, ?_, fun w _ => ⟨s2, hq⟩⟩
          rw [readLoop]
          simp only [hx, hg, List.map_nil, runThrough]
  | cons p l ih =>
    obtain ⟨e, x⟩ := p
    obtain ⟨n, rfl⟩ : ∃ n, fuel = n + 1 := ⟨fuel - 1, by omega⟩
    have hlen : b.rest.length = l.length + 1 := by rw [hr]; rfl
    have key := h [.next, .good] (by simp) (by simp)
    simp only [answersRoot, expected, hr, List.cons.injEq, and_true, he, Bool.not_false] at key
    obtain ⟨k1, k2⟩ := key
    rcases hx : nextRoot F ofLong R d s with ⟨s1, f | ⟨m, e'⟩⟩
    · simp only [askRoot] at k1; rw [hx] at k1; cases k1
    · have ha : askRoot F ofLong R d s .next = (s1, .event m e') := by simp only [askRoot, hx]
      rw [ha] at k1 k2
      cases k1
      dsimp only at k2
      have hg : goodRoot s1 = .ok true := by
        simp only [askRoot] at k2
        rcases hg : goodRoot s1 with x | g
        · rw [hg] at k2; cases k2
        · rw [hg] at k2; cases k2; rfl
      have hf : FollowsBook F ofLong R d s1 { b with rest := l, shown := x } (fun o => o.head? ≠ some .good) := by
        intro ops _ hc
        have := h (.next :: ops) (by simp) (by simp only [List.count_cons_self, hlen]; simpa using hc)
        rw [expected] at this
        simp only [hr, answersRoot, ha, List.cons.injEq] at this
        exact this.2
      rw [readLoop]
      simp only [hx, hg, List.map_cons, runThrough]
      rcases hs : step e v with f | v'
      · exact ⟨s1, rfl, nofun⟩
      · exact ih s1 { b with rest := l, shown := x } v' rfl he hf n (by simp only [List.length_cons] at hfuel; omega)

/-- A macro that asks for the cross section in the end. -/
theorem withFlux_book [Field K] {F : TextFmt K} {ofLong : Int → K} {R : RootIO K} {d : OnDisk} {b : Book K}
    (hb : GivesBook F ofLong R d b) (step : Event K → σ → Except Fail σ) (v : σ) (finish : K → σ → τ)
    (logging : Bool) (fuel : Nat) (hfuel : b.rest.length < fuel) :
    withFlux F ofLong R d logging fuel step v finish =
      some ((runThrough step (bookEvents b) v).map (finish (b.atEnd * squareInverseMeV))) := by
  obtain ⟨s1, h1, h2⟩ := loop_book (step := step) b.rest (freshRoot logging) b v rfl hb.1
    (fun ops ho hc => hb.2 logging ops ho hc) fuel hfuel
  rw [withFlux, h1]
  change _ = some ((runThrough step (b.rest.map (·.1)) v).map _)
  rcases hr : runThrough step (b.rest.map (·.1)) v with x | w
  · simp only [hr, Except.map]
  · obtain ⟨s2, h3⟩ := h2 w hr
    simp only [hr, h3, Except.map]

/-- A macro that does not. -/
theorem withoutFlux_book [Field K] {F : TextFmt K} {ofLong : Int → K} {R : RootIO K} {d : OnDisk} {b : Book K}
    (hb : GivesBook F ofLong R d b) (step : Event K → σ → Except Fail σ) (v : σ) (finish : σ → τ)
    (logging : Bool) (fuel : Nat) (hfuel : b.rest.length < fuel) :
    withoutFlux F ofLong R d logging fuel step v finish =
      some ((runThrough step (bookEvents b) v).map finish) := by
  obtain ⟨s1, h1, h2⟩ := loop_book (step := step) b.rest (freshRoot logging) b v rfl hb.1
    (fun ops ho hc => hb.2 logging ops ho hc) fuel hfuel
  rw [withoutFlux, h1]
  change _ = some ((runThrough step (b.rest.map (·.1)) v).map _)
  rcases hr : runThrough step (b.rest.map (·.1)) v with x | w <;> simp only [hr, Except.map]

/-! ## Histograms -/

theorem count_split [LinearOrder K] {a b c : K} [Field K] (hab : a ≤ b) (hbc : b ≤ c) (V : List (Option K)) :
    V.countP (within a c) = V.countP (within a b) + V.countP (within b c) := by
  induction V with
  | nil => rfl
  | cons x V ih =>
    rw [List.countP_cons, List.countP_cons, List.countP_cons, ih]
    have : (if within a c x = true then 1 else 0) = (if within a b x = true then 1 else 0) + (if within b c x = true then 1 else 0) := by
      cases x with
      | none => rfl
      | some x =>
        simp only [within, Bool.and_eq_true, decide_eq_true_eq]
        by_cases h1 : a ≤ x <;> by_cases h2 : x < b <;> by_cases h3 : x < c
        · simp [h1, h2, h3, not_le.2 h2]
        · exact absurd (lt_of_lt_of_le h2 hbc) h3
        · simp [h1, h2, h3, not_lt.1 h2]
        · simp [h1, h2, h3]
        · simp [h1, h2, h3, not_le.2 h2]
        · exact absurd (lt_of_lt_of_le h2 hbc) h3
        · exact absurd (hab.trans (not_lt.1 h2)) h1
        · simp [h1, h2, h3]
    omega

theorem count_bins [Field K] [LinearOrder K] [IsStrictOrderedRing K] (lo w : K) (hw : 0 ≤ w) (V : List (Option K))
    (n : Nat) : ((List.range n).map (fun (k : Nat) => V.countP (within (lo + k * w) (lo + (k + 1) * w)))).sum =
      V.countP (within lo (lo + n * w)) := by
  induction n with
  | zero =>
    symm
    simp only [List.range_zero, List.map_nil, List.sum_nil]
    rw [List.countP_eq_zero]
    intro x _
    cases x with
    | none => simp [within]
    | some x =>
      simp only [within, Nat.cast_zero, zero_mul, add_zero, Bool.and_eq_true, decide_eq_true_eq, not_and, not_lt]
      exact id
  | succ n ih =>
    rw [List.range_succ, List.map_append, List.sum_append, ih]
    simp only [List.map_cons, List.map_nil, List.sum_cons, List.sum_nil, add_zero]
    rw [← count_split (a := lo) (b := lo + n * w)]
    · push_cast; rfl
    · have : 0 ≤ (n : K) * w := mul_nonneg (Nat.cast_nonneg n) hw
      linarith
    · have : (n + 1 : K) * w = n * w + w := by ring
      linarith

/-- A histogram that is filled and scaled as the macros do. -/
theorem shows_scaled [Field K] [LinearOrder K] [IsStrictOrderedRing K] {h : Hist K} (hlo : h.lo < h.hi)
    (hbins : h.bins ≠ 0) {n : Nat} (hn : n ≠ 0) {xsec c : K} (hs : h.scale = some c)
    (hc : c * h.width * n = xsec) : Shows h xsec h.filled n := by
  have hn' : (n : K) ≠ 0 := by exact_mod_cast hn
  have hb' : (h.bins : K) ≠ 0 := by exact_mod_cast hbins
  have hw : h.bins * h.width = h.hi - h.lo := by
    rw [Hist.width]; field_simp
  have hw0 : 0 ≤ h.width := by
    rw [Hist.width]
    exact div_nonneg (by linarith) (Nat.cast_nonneg _)
  have hk : ∀ m : K, c * m * h.width = xsec * m / n := by
    intro m
    rw [eq_div_iff hn', ← hc]; ring
  refine ⟨(List.range h.bins).map (fun (k : Nat) => c * (h.filled.countP (within (h.lo + k * h.width) (h.lo + (k + 1) * h.width)) : K)),
    ?_, ?_, ?_⟩
  · rw [List.map_map]
    apply List.map_congr_left
    intro k _
    simp only [Hist.content, hs, Option.map_some, Function.comp]
  · intro k x hx
    rw [List.getElem?_map, Option.mem_def, Option.map_eq_some_iff] at hx
    obtain ⟨j, h1, rfl⟩ := hx
    rw [List.getElem?_range (by
      by_contra hcon
      rw [List.getElem?_eq_none (by simpa using hcon)] at h1
      cases h1)] at h1
    cases h1
    exact hk _
  · have hsum : ((List.range h.bins).map (fun (k : Nat) => c * (h.filled.countP (within (h.lo + k * h.width) (h.lo + (k + 1) * h.width)) : K))).sum =
        c * (((List.range h.bins).map (fun (k : Nat) => h.filled.countP (within (h.lo + k * h.width) (h.lo + (k + 1) * h.width)))).sum : Nat) := by
      generalize List.range h.bins = l
      induction l with
      | nil => simp
      | cons a l ih => simp only [List.map_cons, List.sum_cons, ih]; push_cast; ring
    rw [hsum, count_bins h.lo h.width hw0, hw, show h.lo + (h.hi - h.lo) = h.hi by ring]
    exact hk _

theorem fill_all [Field K] [LinearOrder K] (V : List K) (h : Hist K) :
    V.foldl (fun h x => h.fill (some x)) h = { h with filled := h.filled ++ V.map some } := by
  induction V generalizing h with
  | nil => simp
  | cons x V ih => rw [List.foldl_cons, ih]; simp [Hist.fill]

/-! ## C113 the spectrum of neutrinos -/

theorem nu_run [Field K] [LinearOrder K] (l : List (Event K)) (h : Hist K) (n : Nat)
    (hp : ∀ e ∈ l, e.initial ≠ []) :
    runThrough nuBody l (h, n) =
      .ok ({ h with filled := h.filled ++ l.map neutrinoEnergy }, n + l.length) := by
  induction l generalizing h n with
  | nil => simp [runThrough]
  | cons e l ih =>
    obtain ⟨nu, t, he⟩ : ∃ nu t, e.initial = nu :: t := by
      cases hi : e.initial with
      | nil => exact absurd hi (hp e (by simp))
      | cons nu t => exact ⟨nu, t, rfl⟩
    have hstep : nuBody e (h, n) = .ok (h.fill (some nu.E), n + 1) := by
      simp [nuBody, particleAt, he]
    rw [runThrough, hstep]
    dsimp only
    rw [ih _ _ (fun e' h' => hp e' (by simp [h']))]
    simp [Hist.fill, neutrinoEnergy, he]
    omega

/-- C113: for a file with events the macro shows the flux-averaged differential cross section: in each of
100 bins from 0 to 60 MeV, the content times the width of the bin is the part of the cross section
(in 10⁻⁴² cm², as reported by the reader after the last event) due to neutrinos with energies in the
bin; the integral over the histogram is the part due to energies below 60 MeV. -/
theorem C113_neutrinos [Field K] [LinearOrder K] [IsStrictOrderedRing K] {F : TextFmt K} {ofLong : Int → K}
    {R : RootIO K} {d : OnDisk} {b : Book K} (hb : GivesBook F ofLong R d b) (hne : b.rest ≠ [])
    (hp : ∀ e ∈ bookEvents b, e.initial ≠ []) (logging : Bool) (fuel : Nat) (hfuel : b.rest.length < fuel) :
    ∃ h, nuSpect F ofLong R d logging fuel = some (.ok h) ∧ h.bins = 100 ∧ h.lo = 0 ∧ h.hi = 60 ∧
      Shows h (b.atEnd * squareInverseMeV) ((bookEvents b).map neutrinoEnergy) b.rest.length := by
  have hlen : (bookEvents b).length = b.rest.length := by simp [bookEvents]
  have hn : b.rest.length ≠ 0 := by simpa using hne
  have hn' : (b.rest.length : K) ≠ 0 := by exact_mod_cast hn
  rw [nuSpect, withFlux_book hb nuBody _ _ logging fuel hfuel, nu_run _ _ _ hp]
  refine ⟨_, rfl, rfl, rfl, rfl, ?_⟩
  simp only [Hist.new, hlen, Nat.zero_add, List.nil_append]
  have hw : ((60 : K) - 0) / 100 ≠ 0 := by norm_num
  refine shows_scaled (h := Hist.scaleBy _ _) (c := 1 * (b.atEnd * squareInverseMeV / b.rest.length / ((60 - 0) / 100)))
    ?_ ?_ hn ?_ ?_
  · simp [Hist.scaleBy]
  · simp [Hist.scaleBy]
  · simp only [Hist.scaleBy, quot, if_neg hn', if_neg hw, Option.map_some]
  · simp only [Hist.scaleBy, Hist.width]
    push_cast
    field_simp

/-- C113: with no event at all the contents are not numbers. -/
theorem C113_no_events [Field K] [LinearOrder K] {F : TextFmt K} {ofLong : Int → K}
    {R : RootIO K} {d : OnDisk} {b : Book K} (hb : GivesBook F ofLong R d b) (hne : b.rest = [])
    (logging : Bool) (fuel : Nat) (hfuel : 0 < fuel) :
    ∃ h, nuSpect F ofLong R d logging fuel = some (.ok h) ∧ ∀ k, h.content k = none := by
  have hes : bookEvents b = [] := by simp [bookEvents, hne]
  rw [nuSpect, withFlux_book hb nuBody _ _ logging fuel (by rw [hne]; exact hfuel), hes]
  refine ⟨_, rfl, fun k => ?_⟩
  simp [Hist.content, Hist.scaleBy, quot, Hist.new]

/-- C113 fails for files whose reader reports no cross section after the last event, as it is for HEPEVT files
(`C65_hepevt_xsec_violated`): all contents are zero, whatever the cross section was before. -/
theorem C113_hepevt_violated [Field K] [LinearOrder K] [IsStrictOrderedRing K] {F : TextFmt K} {ofLong : Int → K}
    {R : RootIO K} {d : OnDisk} {b : Book K} (hb : GivesBook F ofLong R d b) (hne : b.rest ≠ [])
    (h0 : b.atEnd = 0)
    (hp : ∀ e ∈ bookEvents b, e.initial ≠ []) (logging : Bool) (fuel : Nat) (hfuel : b.rest.length < fuel) :
    ∃ h, nuSpect F ofLong R d logging fuel = some (.ok h) ∧ ∀ k, h.content k = some 0 := by
  have hlen : (bookEvents b).length = b.rest.length := by simp [bookEvents]
  have hn : b.rest.length ≠ 0 := by simpa using hne
  have hn' : (b.rest.length : K) ≠ 0 := by exact_mod_cast hn
  have hw : ((60 : K) - 0) / 100 ≠ 0 := by norm_num
  rw [nuSpect, withFlux_book hb nuBody _ _ logging fuel hfuel, nu_run _ _ _ hp]
  refine ⟨_, rfl, fun k => ?_⟩
  simp [Hist.content, Hist.scaleBy, quot, Hist.new, hlen, hn, h0]

/-- C113: an event without projectile ends the macro with an exception. -/
theorem C113_incomplete [Field K] [LinearOrder K] {F : TextFmt K} {ofLong : Int → K}
    {R : RootIO K} {d : OnDisk} {b : Book K} (hb : GivesBook F ofLong R d b)
    (hp : ∃ e ∈ bookEvents b, e.initial = []) (logging : Bool) (fuel : Nat) (hfuel : b.rest.length < fuel) :
    nuSpect F ofLong R d logging fuel = some (.error (.exc .outOfRange)) := by
  have run : ∀ (l : List (Event K)) (v : Hist K × Nat), (∃ e ∈ l, e.initial = []) →
      runThrough nuBody l v = .error (.exc .outOfRange) := by
    intro l
    induction l with
    | nil => rintro v ⟨e, he, -⟩; simp at he
    | cons e l ih =>
      rintro v ⟨e', he, hi⟩
      rw [runThrough]
      cases h : e.initial with
      | nil => simp [nuBody, particleAt, h]
      | cons nu t =>
        have hne : e' ≠ e := by rintro rfl; rw [hi] at h; cases h
        have := ih (v.1.fill (some nu.E), v.2 + 1) ⟨e', by simpa [hne] using he, hi⟩
        simp [nuBody, particleAt, h, this]
  rw [nuSpect, withFlux_book hb nuBody _ _ logging fuel hfuel, run _ _ hp]
  rfl

/-! ## C113 scattering angles -/

/-- `sqrt` gives square roots of the squares of the momenta of the projectiles and ejectiles. -/
def Roots [Field K] [LinearOrder K] (sqrt : K → K) (es : List (Event K)) : Prop :=
  ∀ e ∈ es, ∀ p, e.initial.head? = some p ∨ e.final.head? = some p →
    0 ≤ sqrt (momentum2 p) ∧ sqrt (momentum2 p) ^ 2 = momentum2 p

theorem momentum2_nonneg [Field K] [LinearOrder K] [IsStrictOrderedRing K] (p : Particle K) : 0 ≤ momentum2 p := by
  unfold momentum2
  nlinarith [mul_self_nonneg p.px, mul_self_nonneg p.py, mul_self_nonneg p.pz]

theorem cosine_ok [Field K] [LinearOrder K] [IsStrictOrderedRing K] {sqrt : K → K} {p q : Particle K}
    (hp : 0 ≤ sqrt (momentum2 p) ∧ sqrt (momentum2 p) ^ 2 = momentum2 p)
    (hq : 0 ≤ sqrt (momentum2 q) ∧ sqrt (momentum2 q) ^ 2 = momentum2 q) :
    IsCosine p q (cosTheta sqrt p q) := by
  have e1 : ∀ r : Particle K, magnitude sqrt r = sqrt (momentum2 r) := by
    intro r
    rw [magnitude, momentum2]
    congr 1
    ring
  rw [cosTheta, quot, e1, e1]
  set a := sqrt (momentum2 p)
  set b := sqrt (momentum2 q)
  by_cases h : a * b = 0
  · rw [if_pos h]
    rcases mul_eq_zero.1 h with h | h
    · left; rw [← hp.2, h]; ring
    · right; rw [← hq.2, h]; ring
  · rw [if_neg h]
    have ha : a ≠ 0 := left_ne_zero_of_mul h
    have hb : b ≠ 0 := right_ne_zero_of_mul h
    refine ⟨?_, ?_, ?_, ?_⟩
    · rw [← hp.2]; exact pow_ne_zero 2 ha
    · rw [← hq.2]; exact pow_ne_zero 2 hb
    · rw [← hp.2, ← hq.2, dot]
      field_simp
    · have hab : 0 < a * b := lt_of_le_of_ne (mul_nonneg hp.1 hq.1) (Ne.symm h)
      change 0 ≤ (dot p q / (a * b)) * dot p q
      rw [div_mul_eq_mul_div]
      exact div_nonneg (mul_self_nonneg _) hab.le

/-- Cosines are between -1 and 1, and 1 only for momenta in the same direction. -/
theorem cosine_bounds [Field K] [LinearOrder K] [IsStrictOrderedRing K] {p q : Particle K} {c : K}
    (h : IsCosine p q (some c)) : -1 ≤ c ∧ c ≤ 1 ∧
      (c = 1 ↔ dot p q ^ 2 = momentum2 p * momentum2 q ∧ 0 < dot p q) := by
  obtain ⟨h1, h2, h3, h4⟩ := h
  have hp := lt_of_le_of_ne (momentum2_nonneg p) (Ne.symm h1)
  have hq := lt_of_le_of_ne (momentum2_nonneg q) (Ne.symm h2)
  have hm : 0 < momentum2 p * momentum2 q := mul_pos hp hq
  have cs : dot p q ^ 2 ≤ momentum2 p * momentum2 q := by
    have : momentum2 p * momentum2 q - dot p q ^ 2 = (p.px * q.py - p.py * q.px) ^ 2 +
        (p.px * q.pz - p.pz * q.px) ^ 2 + (p.py * q.pz - p.pz * q.py) ^ 2 := by
      unfold momentum2 dot; ring
    nlinarith [sq_nonneg (p.px * q.py - p.py * q.px), sq_nonneg (p.px * q.pz - p.pz * q.px),
      sq_nonneg (p.py * q.pz - p.pz * q.py)]
  have hc : c ^ 2 ≤ 1 := by
    by_contra hcon
    have : momentum2 p * momentum2 q < c ^ 2 * (momentum2 p * momentum2 q) := by nlinarith
    linarith
  refine ⟨by nlinarith, by nlinarith, ?_, ?_⟩
  · rintro rfl
    have h5 : dot p q ^ 2 = momentum2 p * momentum2 q := by linarith
    refine ⟨h5, lt_of_le_of_ne (by linarith) ?_⟩
    intro h0
    rw [← h0] at h5
    nlinarith
  · rintro ⟨h5, h6⟩
    rw [h5] at h3
    have h7 : c ^ 2 = 1 := by
      have : (c ^ 2 - 1) * (momentum2 p * momentum2 q) = 0 := by nlinarith [h3]
      rcases mul_eq_zero.1 this with h | h
      · linarith
      · exact absurd h hm.ne'
    have h8 : 0 ≤ c := nonneg_of_mul_nonneg_left h4 h6
    nlinarith

theorem cos_run [Field K] [LinearOrder K] [IsStrictOrderedRing K] {sqrt : K → K} (l : List (Event K)) (h : Hist K)
    (n : Nat) (hp : ∀ e ∈ l, e.initial ≠ [] ∧ e.final ≠ []) (hs : Roots sqrt l) :
    ∃ V, Cosines l V ∧ runThrough (cosBody sqrt) l (h, n) =
      .ok ({ h with filled := h.filled ++ V }, n + l.length) := by
  induction l generalizing h n with
  | nil => exact ⟨[], .nil, by simp [runThrough]⟩
  | cons e l ih =>
    obtain ⟨nu, t, he⟩ : ∃ nu t, e.initial = nu :: t := by
      cases hi : e.initial with
      | nil => exact absurd hi (hp e (by simp)).1
      | cons nu t => exact ⟨nu, t, rfl⟩
    obtain ⟨q, t', he'⟩ : ∃ nu t, e.final = nu :: t := by
      cases hi : e.final with
      | nil => exact absurd hi (hp e (by simp)).2
      | cons nu t => exact ⟨nu, t, rfl⟩
    have hstep : cosBody sqrt e (h, n) = .ok (h.fill (cosTheta sqrt nu q), n + 1) := by
      simp [cosBody, particleAt, he, he']
    obtain ⟨V, h1, h2⟩ := ih (h.fill (cosTheta sqrt nu q)) (n + 1) (fun e' h' => hp e' (by simp [h']))
      (fun e' h' => hs e' (by simp [h']))
    refine ⟨cosTheta sqrt nu q :: V, .cons ⟨nu, q, by simp [he], by simp [he'], ?_⟩ h1, ?_⟩
    · exact cosine_ok (hs e (by simp) nu (.inl (by simp [he]))) (hs e (by simp) q (.inr (by simp [he'])))
    · rw [runThrough, hstep]
      dsimp only
      rw [h2]
      simp [Hist.fill]
      omega

/-- C113: for a file with events the macro shows the flux-averaged cross section differential in the
cosine between projectile and ejectile, in 10 bins from -1 to 1.  If no particle is at rest and no ejectile
flies exactly forward, the integral over the histogram is the whole cross section. -/
theorem C113_angles [Field K] [LinearOrder K] [IsStrictOrderedRing K] {F : TextFmt K} {ofLong : Int → K}
    {R : RootIO K} {d : OnDisk} {b : Book K} (hb : GivesBook F ofLong R d b) (hne : b.rest ≠ [])
    (hp : ∀ e ∈ bookEvents b, e.initial ≠ [] ∧ e.final ≠ []) {sqrt : K → K} (hs : Roots sqrt (bookEvents b))
    (logging : Bool) (fuel : Nat) (hfuel : b.rest.length < fuel) :
    ∃ h V, cosPlot sqrt F ofLong R d logging fuel = some (.ok h) ∧ h.bins = 10 ∧ h.lo = -1 ∧ h.hi = 1 ∧
      Cosines (bookEvents b) V ∧ Shows h (b.atEnd * squareInverseMeV) V b.rest.length ∧
      (∀ x ∈ V, ∀ c ∈ x, -1 ≤ c ∧ c ≤ 1) ∧
      ((∀ x ∈ V, x ≠ none ∧ x ≠ some 1) →
        ∃ cs : List K, (List.range 10).map h.content = cs.map some ∧
          cs.sum * h.width = b.atEnd * squareInverseMeV) := by
  have hlen : (bookEvents b).length = b.rest.length := by simp [bookEvents]
  have hn : b.rest.length ≠ 0 := by simpa using hne
  have hn' : (b.rest.length : K) ≠ 0 := by exact_mod_cast hn
  have hw : ((1 : K) - -1) / 10 ≠ 0 := by norm_num
  obtain ⟨V, h1, h2⟩ := cos_run (sqrt := sqrt) (bookEvents b) (Hist.new 10 (-1) 1) 0 hp hs
  rw [cosPlot, withFlux_book hb (cosBody sqrt) _ _ logging fuel hfuel, h2]
  have bounds : ∀ x ∈ V, ∀ c ∈ x, -1 ≤ c ∧ c ≤ 1 := by
    intro x hx c hc
    obtain ⟨i, hi, rfl⟩ := List.getElem_of_mem hx
    have := List.Forall₂.get h1 (i := i) (h1.length_eq ▸ hi) hi
    obtain ⟨nu, q, -, -, h5⟩ := this
    rw [Option.mem_def] at hc
    simp only [List.get_eq_getElem] at h5
    rw [hc] at h5
    exact ⟨(cosine_bounds h5).1, (cosine_bounds h5).2.1⟩
  have hV : V.length = b.rest.length := by rw [← h1.length_eq, hlen]
  refine ⟨_, V, rfl, rfl, rfl, rfl, h1, ?_⟩
  simp only [Hist.new, hlen, Nat.zero_add, List.nil_append]
  have hshow : Shows (Hist.scaleBy (⟨10, -1, 1, V, some 1⟩ : Hist K)
      (quot (quot (some (b.atEnd * squareInverseMeV)) ((1 - -1) / 10)) (b.rest.length : K)))
      (b.atEnd * squareInverseMeV) V b.rest.length := by
    refine shows_scaled (h := Hist.scaleBy _ _)
      (c := 1 * (b.atEnd * squareInverseMeV / ((1 - -1) / 10) / b.rest.length)) ?_ ?_ hn ?_ ?_
    · simp only [Hist.scaleBy]; norm_num
    · simp [Hist.scaleBy]
    · simp only [Hist.scaleBy, quot, if_neg hn', if_neg hw, Option.map_some]
    · simp only [Hist.scaleBy, Hist.width]
      push_cast
      field_simp
  refine ⟨hshow, bounds, fun hall => ?_⟩
  obtain ⟨cs, k1, k2, k3⟩ := hshow
  refine ⟨cs, k1, ?_⟩
  rw [k3]
  have : V.countP (within (Hist.scaleBy (⟨10, -1, 1, V, some 1⟩ : Hist K)
      (quot (quot (some (b.atEnd * squareInverseMeV)) ((1 - -1) / 10)) (b.rest.length : K))).lo
      (Hist.scaleBy (⟨10, -1, 1, V, some 1⟩ : Hist K)
      (quot (quot (some (b.atEnd * squareInverseMeV)) ((1 - -1) / 10)) (b.rest.length : K))).hi) = V.length := by
    rw [List.countP_eq_length]
    intro x hx
    cases x with
    | none => exact absurd rfl (hall _ hx).1
    | some c =>
      obtain ⟨l1, l2⟩ := bounds _ hx c rfl
      have l3 : c ≠ 1 := fun h => (hall _ hx).2 (by rw [h])
      have l4 : c < 1 := lt_of_le_of_ne l2 l3
      simp [within, Hist.scaleBy, l1, l4]
  rw [this, hV]
  field_simp

/-- C113 fails for ejectiles that fly exactly forward: they are missing in the histogram (the upper limit does
not belong to the last bin). -/
theorem C113_forward_violated [Field K] [LinearOrder K] [IsStrictOrderedRing K] {F : TextFmt K} {ofLong : Int → K}
    {R : RootIO K} {d : OnDisk} {b : Book K} (hb : GivesBook F ofLong R d b) (hne : b.rest ≠ [])
    (hp : ∀ e ∈ bookEvents b, ∃ nu l, e.initial.head? = some nu ∧ e.final.head? = some l ∧
      dot nu l ^ 2 = momentum2 nu * momentum2 l ∧ 0 < dot nu l) {sqrt : K → K} (hs : Roots sqrt (bookEvents b))
    (logging : Bool) (fuel : Nat) (hfuel : b.rest.length < fuel) :
    ∃ h, cosPlot sqrt F ofLong R d logging fuel = some (.ok h) ∧ ∀ k < 10, h.content k = some 0 := by
  obtain ⟨h, V, h1, h2, h3, h4, h5, ⟨cs, k1, k2, k3⟩, -, -⟩ := C113_angles hb hne (fun e he => by
    obtain ⟨nu, l, a, b, -⟩ := hp e he
    exact ⟨fun h => by simp [h] at a, fun h => by simp [h] at b⟩) hs logging fuel hfuel
  have hw : h.width ≠ 0 := by rw [Hist.width, h2, h3, h4]; norm_num
  have hw0 : h.width = 2 / 10 := by rw [Hist.width, h2, h3, h4]; norm_num
  have ones : ∀ x ∈ V, x = some 1 := by
    intro x hx
    obtain ⟨i, hi, rfl⟩ := List.getElem_of_mem hx
    have := List.Forall₂.get h5 (i := i) (h5.length_eq ▸ hi) hi
    obtain ⟨nu, q, a1, a2, a3⟩ := this
    obtain ⟨nu', q', b1, b2, b3, b4⟩ := hp _ (List.get_mem _ _)
    obtain rfl : nu' = nu := Option.some.inj (b1.symm.trans a1)
    obtain rfl : q' = q := Option.some.inj (b2.symm.trans a2)
    simp only [List.get_eq_getElem] at a3
    have hm : momentum2 nu' * momentum2 q' ≠ 0 := by rw [← b3]; exact pow_ne_zero 2 b4.ne'
    cases hv : V[i] with
    | none =>
      rw [hv] at a3
      rcases a3 with a3 | a3 <;> rw [a3] at hm <;> simp at hm
    | some c =>
      rw [hv] at a3
      rw [(cosine_bounds a3).2.2.2 ⟨b3, b4⟩]
  refine ⟨h, h1, fun k hk => ?_⟩
  rw [h2] at k1
  have hl : cs.length = 10 := by simpa using (congrArg List.length k1).symm
  have hc := k2 k cs[k] (by simp)
  have hz : V.countP (within (h.lo + k * h.width) (h.lo + (k + 1) * h.width)) = 0 := by
    rw [List.countP_eq_zero]
    intro x hx
    rw [ones x hx]
    simp only [within, Bool.and_eq_true, decide_eq_true_eq, not_and, not_lt]
    intro _
    rw [h3, hw0]
    have : (k : K) + 1 ≤ 10 := by exact_mod_cast hk
    linarith
  rw [hz] at hc
  have hc0 : cs[k] = 0 := by
    simp only [Nat.cast_zero, mul_zero, zero_div] at hc
    rcases mul_eq_zero.1 hc with h | h
    · exact h
    · exact absurd h hw
  have := congrArg (fun l => l[k]?) k1
  simp only [List.getElem?_map, List.getElem?_range hk, Option.map_some] at this
  rw [List.getElem?_eq_getElem (by omega), hc0] at this
  simpa using this

/-! ## C113 energies of final particles -/

theorem collect_eq [Field K] [LinearOrder K] [IsStrictOrderedRing K] (pdg : Int) (l : List (Particle K)) (v : List K) :
    collect pdg l v = v ++ (l.filter (fun p => p.pdg = pdg)).map kineticEnergy := by
  induction l generalizing v with
  | nil => simp [collect]
  | cons p l ih =>
    rw [collect, ih]
    by_cases h : p.pdg = pdg
    · simp [h, kinetic_eq]
    · simp [h]

theorem fp_run [Field K] [LinearOrder K] [IsStrictOrderedRing K] (pdg : Int) (l : List (Event K)) (v : List K) (n : Nat) :
    runThrough (fpBody pdg) l (v, n) = .ok (v ++ kineticEnergies pdg l, n + l.length) := by
  induction l generalizing v n with
  | nil => simp [runThrough, kineticEnergies]
  | cons e l ih =>
    rw [runThrough, fpBody]
    dsimp only
    rw [ih, collect_eq]
    simp [kineticEnergies]
    omega

theorem extremes_spec [Field K] [LinearOrder K] [IsStrictOrderedRing K] (l : List K) (m : K × K) :
    (∀ x ∈ l, x ≤ (extremes l m).1) ∧ m.1 ≤ (extremes l m).1 ∧ (extremes l m).2 ≤ m.2 ∧
    ((l.Pairwise (· < ·) ∧ ∀ x ∈ l, m.1 < x) → extremes l m = (l.getLast?.getD m.1, m.2)) ∧
    ((∀ x ∈ l, x < m.2) → ¬ (l.Pairwise (· < ·) ∧ ∀ x ∈ l, m.1 < x) → (extremes l m).2 ≤ (extremes l m).1) := by
  induction l generalizing m with
  | nil =>
    refine ⟨by simp, le_refl _, le_refl _, fun _ => rfl, fun _ h => absurd ⟨.nil, by simp⟩ h⟩
  | cons ke t ih =>
    rw [extremes]
    by_cases h1 : ke > m.1
    · rw [if_pos h1]
      obtain ⟨a1, a2, a3, a4, a5⟩ := ih (ke, m.2)
      refine ⟨?_, h1.le.trans a2, a3, ?_, ?_⟩
      · intro x hx
        rcases List.mem_cons.1 hx with rfl | hx
        · exact a2
        · exact a1 x hx
      · rintro ⟨p1, p2⟩
        rw [List.pairwise_cons] at p1
        rw [a4 ⟨p1.2, p1.1⟩]
        cases t with
        | nil => rfl
        | cons y t => simp [List.getLast?_cons]
      · intro hx hcon
        refine a5 (fun x h => hx x (by simp [h])) (fun hcon' => hcon ⟨?_, ?_⟩)
        · exact List.pairwise_cons.2 ⟨hcon'.2, hcon'.1⟩
        · intro x h
          rcases List.mem_cons.1 h with rfl | h
          · exact h1
          · exact h1.trans (hcon'.2 x h)
    · rw [if_neg h1]
      have hbad : ¬ ((ke :: t).Pairwise (· < ·) ∧ ∀ x ∈ ke :: t, m.1 < x) := fun h => h1 (h.2 ke (by simp))
      by_cases h2 : ke < m.2
      · rw [if_pos h2]
        obtain ⟨a1, a2, a3, a4, a5⟩ := ih (m.1, ke)
        refine ⟨?_, a2, a3.trans h2.le, fun h => absurd h hbad, fun _ _ => ?_⟩
        · intro x hx
          rcases List.mem_cons.1 hx with rfl | hx
          · exact (not_lt.1 h1).trans a2
          · exact a1 x hx
        · exact a3.trans ((not_lt.1 h1).trans a2)
      · rw [if_neg h2]
        obtain ⟨a1, a2, a3, a4, a5⟩ := ih m
        refine ⟨?_, a2, a3, fun h => absurd h hbad, fun hx => absurd (hx ke (by simp)) h2⟩
        intro x hx
        rcases List.mem_cons.1 hx with rfl | hx
        · exact (not_lt.1 h1).trans a2
        · exact a1 x hx

theorem kineticEnergy_nonneg [Field K] [LinearOrder K] [IsStrictOrderedRing K] (p : Particle K) : 0 ≤ kineticEnergy p := by
  unfold kineticEnergy
  split_ifs with h
  · linarith
  · exact le_refl _

/-- C113, the part that holds: the histogram is filled with the kinetic energies of all final particles of the
kind, and their number and the number of events are shown.  If the energies are not in strictly
ascending order, the limits comprise all of them. -/
theorem C113_particles_partial [Field K] [LinearOrder K] [IsStrictOrderedRing K] {F : TextFmt K} {ofLong : Int → K}
    {R : RootIO K} {d : OnDisk} {b : Book K} (hb : GivesBook F ofLong R d b) (pdg : Int) (logging : Bool)
    (fuel : Nat) (hfuel : b.rest.length < fuel) :
    ∃ h, fpSpect pdg F ofLong R d logging fuel =
        some (.ok (h, (kineticEnergies pdg (bookEvents b)).length, b.rest.length)) ∧
      h.filled = (kineticEnergies pdg (bookEvents b)).map some ∧ h.scale = some 1 ∧
      ((∀ x ∈ kineticEnergies pdg (bookEvents b), x < 10 ^ 30) →
        ¬ (kineticEnergies pdg (bookEvents b)).Pairwise (· < ·) → h.automatic) := by
  rw [fpSpect, withoutFlux_book hb (fpBody pdg) _ _ logging fuel hfuel, fp_run]
  simp only [List.nil_append, Nat.zero_add, Except.map, fpHist, fill_all]
  have hlen : (bookEvents b).length = b.rest.length := by simp [bookEvents]
  rw [hlen]
  refine ⟨_, rfl, by simp [Hist.new], rfl, fun hx hns => ?_⟩
  exact (extremes_spec (kineticEnergies pdg (bookEvents b)) (-10 ^ 30, 10 ^ 30)).2.2.2.2 hx (fun h => hns h.1)

/-- C113 fails for energies in strictly ascending order, in particular for a single particle: the smallest energy is
never noted, the limits are the largest energy and 10³⁰ MeV, and all other energies are below them. -/
theorem C113_ascending_violated [Field K] [LinearOrder K] [IsStrictOrderedRing K] {F : TextFmt K} {ofLong : Int → K}
    {R : RootIO K} {d : OnDisk} {b : Book K} (hb : GivesBook F ofLong R d b) (pdg : Int) (logging : Bool)
    (fuel : Nat) (hfuel : b.rest.length < fuel) {l : List K} {top : K}
    (hl : kineticEnergies pdg (bookEvents b) = l ++ [top]) (hs : (l ++ [top]).Pairwise (· < ·)) (ht : top < 10 ^ 30) :
    ∃ h m n, fpSpect pdg F ofLong R d logging fuel = some (.ok (h, m, n)) ∧ h.lo = top ∧ h.hi = 10 ^ 30 ∧
      ¬ h.automatic ∧ ∀ x ∈ l, x < h.lo := by
  rw [fpSpect, withoutFlux_book hb (fpBody pdg) _ _ logging fuel hfuel, fp_run]
  simp only [List.nil_append, Nat.zero_add, Except.map, fpHist, fill_all]
  have hpos : ∀ x ∈ l ++ [top], (-10 ^ 30 : K) < x := by
    intro x hx
    rw [← hl, kineticEnergies] at hx
    simp only [List.mem_flatMap, List.mem_map] at hx
    obtain ⟨e, _, p, _, rfl⟩ := hx
    have := kineticEnergy_nonneg p
    have : (-10 ^ 30 : K) < 0 := by norm_num
    linarith
  have he := (extremes_spec (l ++ [top]) (-10 ^ 30, 10 ^ 30)).2.2.2.1 ⟨hs, hpos⟩
  rw [hl, he]
  refine ⟨_, _, _, rfl, by simp [Hist.new], rfl, ?_, ?_⟩
  · simp only [Hist.automatic, Hist.new, List.getLast?_append, List.getLast?_singleton, Option.some_or, Option.getD_some,
      not_le]
    exact ht
  · intro x hx
    simp only [Hist.new, List.getLast?_append, List.getLast?_singleton, Option.some_or, Option.getD_some]
    rw [List.pairwise_append] at hs
    exact hs.2.2 x hx top (by simp)

/-! ## C113 excitation energies -/

theorem ex_run [Field K] [LinearOrder K] (l : List (Event K)) (m : K) (v : List K) :
    ∃ m', runThrough exBody l (m, v) = .ok (m', v ++ l.map (·.Ex)) ∧ (0 ≤ m → (∀ e ∈ l, 0 ≤ e.Ex) → 0 ≤ m') := by
  induction l generalizing m v with
  | nil => exact ⟨m, by simp [runThrough], fun h _ => h⟩
  | cons e l ih =>
    rw [runThrough, exBody]
    dsimp only
    obtain ⟨m', h1, h2⟩ := ih (if e.Ex < m then e.Ex else m) (v ++ [e.Ex])
    refine ⟨m', by rw [h1]; simp, fun h h' => h2 ?_ (fun e' he' => h' e' (by simp [he']))⟩
    split_ifs
    · exact h' e (by simp)
    · exact h

/-- C113: the histogram of excitation energies is filled with those of all events, and as none is negative its
limits comprise all of them. -/
theorem C113_excitation [Field K] [LinearOrder K] [IsStrictOrderedRing K] {F : TextFmt K} {ofLong : Int → K}
    {R : RootIO K} {d : OnDisk} {b : Book K} (hb : GivesBook F ofLong R d b) (logging : Bool)
    (fuel : Nat) (hfuel : b.rest.length < fuel) :
    ∃ h, exHist F ofLong R d logging fuel = some (.ok h) ∧ h.filled = (bookEvents b).map (fun e => some e.Ex) ∧
      h.scale = some 1 ∧ ((∀ e ∈ bookEvents b, 0 ≤ e.Ex) → h.automatic) := by
  obtain ⟨m, h1, h2⟩ := ex_run (bookEvents b) (1 / 2 ^ 1022) []
  rw [exHist, withoutFlux_book hb exBody _ _ logging fuel hfuel, h1]
  simp only [List.nil_append, Except.map, fill_all]
  refine ⟨_, rfl, by simp [Hist.new], rfl, fun hx => ?_⟩
  have h0 : (0 : K) ≤ 1 / 2 ^ 1022 := by positivity
  have := h2 h0 hx
  simp only [Hist.automatic, Hist.new]
  nlinarith

/-! ## C113 printing -/

/-- C113: the macro that prints events prints what `marprint` prints (C108). -/
theorem C113_print_partial [Field K] [LinearOrder K] (num : K → Str) {F : TextFmt K} {ofLong : Int → K}
    {R : RootIO K} {d : OnDisk} {b : Book K} (hb : GivesBook F ofLong R d b) (logging : Bool)
    (fuel : Nat) (hfuel : b.rest.length < fuel) (hspin : ∀ e ∈ bookEvents b, 0 ≤ e.twoJ) :
    printEvents num F ofLong R d logging fuel =
      some (.ok ((bookEvents b).zipIdx.flatMap (fun p => unlines (eventLines num p.1 p.2)))) := by
  have run : ∀ (l : List (Event K)) (v : Str) (n : Nat), (∀ e ∈ l, 0 ≤ e.twoJ) →
      runThrough (printEventsBody num) l (v, n) =
        .ok (v ++ (l.zipIdx n).flatMap (fun p => unlines (eventLines num p.1 p.2)), n + l.length) := by
    intro l
    induction l with
    | nil => intro v n _; simp [runThrough]
    | cons e l ih =>
      intro v n h
      rw [runThrough, printEventsBody]
      dsimp only
      rw [ih _ _ (fun e' h' => h e' (by simp [h'])), eventInfo_eq num e n (h e (by simp))]
      simp
      omega
  rw [printEvents, withoutFlux_book hb (printEventsBody num) _ _ logging fuel hfuel, run _ _ _ hspin]
  simp [Except.map]

/-! ## C113 reconstructed energies -/

/-- What the loop over the particles does. -/
theorem recoParticles_eq [Field K] [LinearOrder K] [IsStrictOrderedRing K] (q : K) (l : List (Particle K)) (v : Reco K) (ke : K) :
    recoParticles q l (v, ke) = ({ v with
      eq_ := { v.eq_ with filled := v.eq_.filled ++
        ((l.filter (fun p => p.pdg = 11)).map (fun p => some (kineticEnergy p + q))) }
      allGamma := v.allGamma + l.countP (fun p => p.pdg = 1000190400)
      oneN := v.oneN + l.countP (fun p => p.pdg = 1000190390)
      oneP := v.oneP + l.countP (fun p => p.pdg = 1000180390)
      other := v.other + l.countP (fun p => p.pdg > 1000020040 ∧ p.pdg ≠ 1000190400 ∧ p.pdg ≠ 1000190390 ∧
        p.pdg ≠ 1000180390) },
      ke + ((l.filter (fun p => p.pdg ≠ 2112)).map kineticEnergy).sum) := by
  induction l generalizing v ke with
  | nil => simp [recoParticles]
  | cons p l ih =>
    rw [recoParticles]
    dsimp only
    rw [ih]
    by_cases h1 : p.pdg = 2112
    · simp [h1]
    · by_cases h2 : p.pdg = 11
      · simp [h2, Hist.fill, kinetic_eq, add_assoc]
      · by_cases h3 : p.pdg = 1000190400
        · simp [h3, kinetic_eq, add_assoc, add_comm 1]
        · by_cases h4 : p.pdg = 1000190390
          · simp [h4, kinetic_eq, add_assoc, add_comm 1]
          · by_cases h5 : p.pdg = 1000180390
            · simp [h5, kinetic_eq, add_assoc, add_comm 1]
            · by_cases h6 : p.pdg > 1000020040
              · simp [h1, h2, h3, h4, h5, h6, kinetic_eq, add_assoc, add_comm 1]
              · simp [h1, h2, h3, h4, h5, h6, kinetic_eq, add_assoc]

/-- The variables after the events. -/
theorem reco_run [Field K] [LinearOrder K] [IsStrictOrderedRing K] (l : List (Event K)) (v : Reco K)
    (hp : ∀ e ∈ l, e.initial ≠ []) :
    runThrough recoBody l v = .ok
      ⟨{ v.true_ with filled := v.true_.filled ++ l.map neutrinoEnergy },
       { v.eq_ with filled := v.eq_.filled ++ (electronEstimates l).map some },
       { v.reco with filled := v.reco.filled ++ l.map (fun e => some (reconstructed e)) },
       v.allGamma + times 1000190400 l, v.oneN + times 1000190390 l, v.oneP + times 1000180390 l,
       v.other + (finalParticles l).countP (fun p => p.pdg > 1000020040 ∧ p.pdg ≠ 1000190400 ∧ p.pdg ≠ 1000190390 ∧
         p.pdg ≠ 1000180390),
       v.events + l.length⟩ := by
  induction l generalizing v with
  | nil => simp [runThrough, electronEstimates, kineticEnergies, times, finalParticles]
  | cons e l ih =>
    obtain ⟨nu, t, he⟩ : ∃ nu t, e.initial = nu :: t := by
      cases hi : e.initial with
      | nil => exact absurd hi (hp e (by simp))
      | cons nu t => exact ⟨nu, t, rfl⟩
    have hat : particleAt e.initial 0 = .ok nu := by simp [particleAt, he]
    rw [runThrough, recoBody]
    dsimp only
    rw [hat, recoParticles_eq]
    dsimp only
    rw [ih _ (fun e' h' => hp e' (by simp [h']))]
    simp only [Hist.fill, Except.ok.injEq, Reco.mk.injEq, times, finalParticles, List.flatMap_cons, List.countP_append,
      List.length_cons, electronEstimates, kineticEnergies, List.map_append, List.map_cons, List.append_assoc,
      List.singleton_append, List.map_map, true_and, Hist.mk.injEq, and_true, neutrinoEnergy, he, List.head?_cons,
      Option.map_some, reconstructed, zero_add, qGroundState]
    refine ⟨?_, ?_, ?_, ?_, ?_⟩ <;> first | omega | rfl

theorem heavy_count (l : List (Particle K)) :
    l.countP (fun p => p.pdg = 1000190400) + l.countP (fun p => p.pdg = 1000190390) +
      l.countP (fun p => p.pdg = 1000180390) + l.countP (fun p => p.pdg > 1000020040 ∧ p.pdg ≠ 1000190400 ∧
        p.pdg ≠ 1000190390 ∧ p.pdg ≠ 1000180390) = l.countP (fun p => p.pdg > 1000020040) := by
  induction l with
  | nil => rfl
  | cons p l ih =>
    simp only [List.countP_cons, ← ih]
    by_cases h3 : p.pdg = 1000190400
    · simp [h3]; omega
    · by_cases h4 : p.pdg = 1000190390
      · simp [h4]; omega
      · by_cases h5 : p.pdg = 1000180390
        · simp [h5]; omega
        · by_cases h6 : p.pdg > 1000020040
          · simp [h3, h4, h5, h6]; omega
          · simp [h3, h4, h5, h6]

/-- C113: the macro shows the flux-averaged cross section differential in the true and in two reconstructed
neutrino energies, in 110 bins from 0 to 55 MeV, and counts the nuclei heavier than helium-4 among
the final particles: those of ⁴⁰K, ³⁹K, ³⁹Ar, and all others. -/
theorem C113_reconstruction [Field K] [LinearOrder K] [IsStrictOrderedRing K] {F : TextFmt K} {ofLong : Int → K}
    {R : RootIO K} {d : OnDisk} {b : Book K} (hb : GivesBook F ofLong R d b) (hne : b.rest ≠ [])
    (hp : ∀ e ∈ bookEvents b, e.initial ≠ []) (logging : Bool) (fuel : Nat) (hfuel : b.rest.length < fuel) :
    ∃ r, recoSpectrum F ofLong R d logging fuel = some (.ok r) ∧ r.events = b.rest.length ∧
      (∀ h, h = r.true_ ∨ h = r.reco ∨ h = r.eq_ → h.bins = 110 ∧ h.lo = 0 ∧ h.hi = 55) ∧
      Shows r.true_ (b.atEnd * squareInverseMeV) ((bookEvents b).map neutrinoEnergy) b.rest.length ∧
      Shows r.reco (b.atEnd * squareInverseMeV) ((bookEvents b).map (fun e => some (reconstructed e))) b.rest.length ∧
      Shows r.eq_ (b.atEnd * squareInverseMeV) ((electronEstimates (bookEvents b)).map some) b.rest.length ∧
      r.allGamma = times 1000190400 (bookEvents b) ∧ r.oneN = times 1000190390 (bookEvents b) ∧
      r.oneP = times 1000180390 (bookEvents b) ∧
      r.allGamma + r.oneN + r.oneP + r.other = (finalParticles (bookEvents b)).countP (fun p => p.pdg > 1000020040) := by
  have hlen : (bookEvents b).length = b.rest.length := by simp [bookEvents]
  have hn : b.rest.length ≠ 0 := by simpa using hne
  have hn' : (b.rest.length : K) ≠ 0 := by exact_mod_cast hn
  have hw : ((55 : K) - 0) / 110 ≠ 0 := by norm_num
  rw [recoSpectrum, withFlux_book hb recoBody _ _ logging fuel hfuel, reco_run _ _ hp]
  have hshow : ∀ V : List (Option K), Shows (Hist.scaleBy (⟨110, 0, 55, V, some 1⟩ : Hist K)
      (quot (quot (some (b.atEnd * squareInverseMeV)) (b.rest.length : K)) ((55 - 0) / 110)))
      (b.atEnd * squareInverseMeV) V b.rest.length := by
    intro V
    refine shows_scaled (h := Hist.scaleBy _ _)
      (c := 1 * (b.atEnd * squareInverseMeV / b.rest.length / ((55 - 0) / 110))) ?_ ?_ hn ?_ ?_
    · simp only [Hist.scaleBy]; norm_num
    · simp [Hist.scaleBy]
    · simp only [Hist.scaleBy, quot, if_neg hn', if_neg hw, Option.map_some]
    · simp only [Hist.scaleBy, Hist.width]
      push_cast
      field_simp
  refine ⟨_, rfl, ?_, ?_, ?_, ?_, ?_, ?_, ?_, ?_, ?_⟩
  · simp [recoFinish, hlen]
  · rintro h (rfl | rfl | rfl) <;> exact ⟨rfl, rfl, rfl⟩
  · simp only [recoFinish, Hist.new, Nat.zero_add, List.nil_append, hlen]
    exact hshow _
  · simp only [recoFinish, Hist.new, Nat.zero_add, List.nil_append, hlen]
    exact hshow _
  · simp only [recoFinish, Hist.new, Nat.zero_add, List.nil_append, hlen]
    exact hshow _
  · simp [recoFinish]
  · simp [recoFinish]
  · simp [recoFinish]
  · simp only [recoFinish, Nat.zero_add, times]
    exact heavy_count _

/-- C113: how far the reconstructed energy is from the true one.  In an event that conserves energy it is larger by the
energy of the target plus 1.5044 MeV minus the masses of all final particles, and smaller by the kinetic energies of the
neutrons. -/
theorem C113_resolution [Field K] [LinearOrder K] [IsStrictOrderedRing K] (e : Event K) (nu target : Particle K)
    (hi : e.initial = [nu, target]) (hE : (e.final.map (·.E)).sum = (e.initial.map (·.E)).sum)
    (hm : ∀ p ∈ e.final, p.mass ≤ p.E) :
    reconstructed e = nu.E + (target.E + 15044 / 10000 - (e.final.map (·.mass)).sum) -
      ((e.final.filter (fun p => p.pdg = 2112)).map kineticEnergy).sum := by
  have h1 : ∀ l : List (Particle K), (∀ p ∈ l, p.mass ≤ p.E) →
      ((l.filter (fun p => p.pdg ≠ 2112)).map kineticEnergy).sum +
        ((l.filter (fun p => p.pdg = 2112)).map kineticEnergy).sum = (l.map (·.E)).sum - (l.map (·.mass)).sum := by
    intro l
    induction l with
    | nil => intro _; simp
    | cons p l ih =>
      intro h
      have h2 := ih (fun q hq => h q (by simp [hq]))
      have h3 : kineticEnergy p = p.E - p.mass := by
        have := h p (by simp)
        unfold kineticEnergy
        rw [if_pos this]
      by_cases hn : p.pdg = 2112
      · simp only [hn, List.filter_cons, List.map_cons, List.sum_cons, h3, ne_eq, not_true, decide_false, decide_true,
          if_true, Bool.false_eq_true, if_false] at h2 ⊢
        linarith
      · simp only [hn, List.filter_cons, List.map_cons, List.sum_cons, h3, ne_eq, not_false_eq_true, decide_false, decide_true,
          if_true, Bool.false_eq_true, if_false] at h2 ⊢
        linarith
  have h2 := h1 e.final hm
  rw [reconstructed]
  rw [hE, hi] at h2
  simp only [List.map_cons, List.map_nil, List.sum_cons, List.sum_nil] at h2
  linarith

theorem nucleons_nonneg (c : Int) : 0 ≤ nucleons c := by
  unfold nucleons; split_ifs <;> omega

theorem protons_zero {c : Int} (hc : 1000000000 < c → 2 ≤ nucleons c) (hz : nucleons c = 0) : protons c = 0 := by
  by_cases h1 : 1000000000 < c
  · have := hc h1; omega
  · have h2 : c ≠ 2212 := by rintro rfl; exact absurd hz (by decide)
    rw [protons, if_neg h2, if_neg h1]

/-- Codes that stand for nothing but neutrons, protons, larger nuclei and particles without nucleons: what is left over when
there is at most one nucleon. -/
theorem remainder_of_sum (l : List Int) (h : ∀ c ∈ l, 1000000000 < c → 2 ≤ nucleons c) :
    0 ≤ (l.map nucleons).sum ∧
    ((l.map nucleons).sum = 0 → l.filter (fun c => nucleons c ≠ 0) = [] ∧ (l.map protons).sum = 0) ∧
    ((l.map nucleons).sum = 1 → ∃ c, l.filter (fun c => nucleons c ≠ 0) = [c] ∧
      ((c = 2112 ∧ (l.map protons).sum = 0) ∨ (c = 2212 ∧ (l.map protons).sum = 1))) := by
  induction l with
  | nil => simp
  | cons c l ih =>
    obtain ⟨h1, h2, h3⟩ := ih (fun c' h' => h c' (by simp [h']))
    have hc := h c (by simp)
    have h0 := nucleons_nonneg c
    simp only [List.map_cons, List.sum_cons]
    refine ⟨by omega, fun hs => ?_, fun hs => ?_⟩
    · have hz : nucleons c = 0 := by omega
      obtain ⟨a1, a2⟩ := h2 (by omega)
      refine ⟨by simpa [hz] using a1, ?_⟩
      have hp : protons c = 0 := by
        exact protons_zero hc hz
      omega
    · by_cases hz : nucleons c = 0
      · obtain ⟨c', a1, a2⟩ := h3 (by omega)
        have hp : protons c = 0 := by
          exact protons_zero hc hz
        refine ⟨c', by simpa [hz] using a1, ?_⟩
        rw [hp]
        simpa using a2
      · obtain ⟨a1, a2⟩ := h2 (by omega)
        have h1' : nucleons c = 1 := by omega
        refine ⟨c, by rw [List.filter_cons, if_pos (by simp [h1']), a1], ?_⟩
        have hc' : ¬ 1000000000 < c := fun x => by have := hc x; omega
        unfold nucleons at h1'
        have x1 : c = 2112 ∨ c = 2212 := by
          by_contra x1
          rw [if_neg x1, if_neg hc'] at h1'
          omega
        rcases x1 with rfl | rfl
        · left; exact ⟨rfl, by rw [a2]; rfl⟩
        · right; exact ⟨rfl, by rw [a2]; rfl⟩

/-- C113: what the counters mean.  Let an event have 40 nucleons and 19 protons among its final particles, as is the case
when argon-40 absorbs an electron neutrino and an electron is emitted.  If ⁴⁰K is among them, no
nucleon was emitted; if ³⁹K, exactly one neutron and no other particle with nucleons; if ³⁹Ar, exactly one proton. -/
theorem C113_channels (e : Event K) (hk : Known e) (before after : List (Particle K)) (p : Particle K)
    (he : e.final = before ++ p :: after) (hA : (e.final.map (fun p => nucleons p.pdg)).sum = 40)
    (hZ : (e.final.map (fun p => protons p.pdg)).sum = 19) :
    (p.pdg = 1000190400 → hadronic (before ++ after) = []) ∧
    (p.pdg = 1000190390 → hadronic (before ++ after) = [2112]) ∧
    (p.pdg = 1000180390 → hadronic (before ++ after) = [2212]) := by
  obtain ⟨-, h2, h3⟩ := remainder_of_sum ((before ++ after).map (·.pdg)) (by
    intro c hc
    obtain ⟨q, hq, rfl⟩ := List.mem_map.1 hc
    refine hk q ?_
    rw [he]
    rcases List.mem_append.1 hq with h | h <;> simp [h])
  have sA : (((before ++ after).map (·.pdg)).map nucleons).sum = 40 - nucleons p.pdg := by
    rw [he] at hA
    simp only [List.map_append, List.map_cons, List.sum_append, List.sum_cons, List.map_map] at hA ⊢
    simp only [Function.comp_def]
    omega
  have sZ : (((before ++ after).map (·.pdg)).map protons).sum = 19 - protons p.pdg := by
    rw [he] at hZ
    simp only [List.map_append, List.map_cons, List.sum_append, List.sum_cons, List.map_map] at hZ ⊢
    simp only [Function.comp_def]
    omega
  refine ⟨fun h => ?_, fun h => ?_, fun h => ?_⟩ <;> rw [h] at sA sZ
  · exact (h2 (by rw [sA]; decide)).1
  · obtain ⟨c, h4, h5⟩ := h3 (by rw [sA]; decide)
    rw [hadronic, h4]
    rw [sZ] at h5
    rcases h5 with ⟨rfl, -⟩ | ⟨-, h5⟩
    · rfl
    · exact absurd h5 (by decide)
  · obtain ⟨c, h4, h5⟩ := h3 (by rw [sA]; decide)
    rw [hadronic, h4]
    rw [sZ] at h5
    rcases h5 with ⟨-, h5⟩ | ⟨rfl, -⟩
    · exact absurd h5 (by decide)
    · rfl

/-! ## C113 which files -/

/-- Text files that C65 describes can be given to the macros. -/
theorem C113_text_file [DivisionRing K] (F : TextFmt K) (ofLong : Int → K) (R : RootIO K) (text : Str)
    (b : Book K) (he : b.ended = false) (hR : R.decode text = none) (h : ReadsOnceAs F ofLong text b) :
    GivesBook F ofLong R ⟨true, some text⟩ b :=
  ⟨he, fun logging ops h1 h2 => by
    rw [(C106_read_text F ofLong R ⟨true, some text⟩ hR logging ops).1]; exact h logging ops h1 h2⟩

/-- So can every ROOT file with an event tree and a cross section. -/
theorem C113_root_file [Field K] (F : TextFmt K) (hf : F.dbl.Lawful) (ofLong : Int → K)
    {R : RootIO K} (hR : R.Lawful) (text : Str) (data : RootData K) (es : List (Event K)) (x : K)
    (hd : R.decode text = some data) (ht : data.tree = some es) (hx : data.flux = some x) :
    GivesBook F ofLong R ⟨true, some text⟩ (constantBook x es) :=
  ⟨rfl, fun logging ops h1 _ => (C106_read_partial F hf ofLong hR text data es x hd ht hx logging ops h1).1⟩

/-! ## Cases -/

/-- Events in which argon-40 absorbs a neutrino of 20 MeV: the electron at a right angle and no nucleon emitted; the electron
forward at an angle and a neutron emitted; the electron exactly forward and a proton emitted. -/
def exScatter : List (Event ℚ) :=
  [⟨[⟨12, 20, 0, 0, 20, 0, 0⟩, ⟨1000180400, 37216, 0, 0, 0, 37216, 0⟩],
    [⟨11, 6, 3, 4, 0, 1/2, -1⟩, ⟨1000190400, 37226, -3, -4, 16, 37217, 1⟩, ⟨22, 4, 0, 0, 4, 0, 0⟩], 4, 8, ⟨false⟩⟩,
   ⟨[⟨12, 20, 0, 0, 20, 0, 0⟩, ⟨1000180400, 37216, 0, 0, 0, 37216, 0⟩],
    [⟨11, 8, 0, 3, 4, 1/2, -1⟩, ⟨1000190390, 36286, 0, -3, 16, 36285, 1⟩, ⟨2112, 942, 0, 0, 0, 940, 0⟩], 10, 2, ⟨true⟩⟩,
   ⟨[⟨12, 20, 0, 0, 20, 0, 0⟩, ⟨1000180400, 37216, 0, 0, 0, 37216, 0⟩],
    [⟨11, 7, 0, 0, 5, 1/2, -1⟩, ⟨1000180390, 36289, 0, 0, 15, 36286, 0⟩, ⟨2212, 940, 0, 0, 0, 938, 1⟩], 9, 2, ⟨true⟩⟩]

/-- A ROOT file with events. -/
theorem exFile_book (ofLong : Int → ℚ) (es : List (Event ℚ)) :
    GivesBook exText ofLong (exRoot true) ⟨true, some ((exRoot true).encode (exHolds es 2))⟩ (constantBook (3 / 2) es) :=
  C113_root_file exText ratFmt_lawful ofLong (exRoot_lawful true) _ (exHolds es 2) es (3 / 2)
    ((exRoot_lawful true).decode_encode _) rfl rfl

theorem exFile_events (es : List (Event ℚ)) : bookEvents (constantBook (3 / 2) es) = es := by
  simp [bookEvents, constantBook, Function.comp_def]

/-- A HEPEVT file with two events. -/
theorem exHepevt_book (ofLong : Int → ℚ) (R : RootIO ℚ)
    (hR : R.decode (hepevtFile ratIntFmt [(sampleEvent, 3 / 2), (sampleEvent, 5 / 2)]) = none) :
    GivesBook exTextInt ofLong R ⟨true, some (hepevtFile ratIntFmt [(sampleEvent, 3 / 2), (sampleEvent, 5 / 2)])⟩
      ⟨[(sampleEvent, 3 / 2), (sampleEvent, 5 / 2)], 3 / 2, 0, false⟩ := by
  refine C113_text_file _ _ _ _ _ rfl hR ?_
  intro lg ops h1 _
  refine C65_hepevt_partial exTextInt ratIntFmt_lawful ratIntFmt_zero ratIntFmt_int ofLong _ _ _ ?_ lg ops h1
  intro p hp
  simp only [List.mem_cons, List.not_mem_nil, or_false] at hp
  rcases hp with rfl | rfl <;> exact sampleEvent_hepReads

/-- Three neutrinos of 20 MeV: the bin from 19.8 to 20.4 MeV has all of the cross section. -/
example (ofLong : Int → ℚ) : ∃ h, nuSpect exText ofLong (exRoot true)
    ⟨true, some ((exRoot true).encode (exHolds exScatter 2))⟩ true 4 = some (.ok h) ∧
    h.content 33 = some (5 / 2 * squareInverseMeV) := by
  obtain ⟨h, h1, h2, h3, h4, cs, h5, h6, -⟩ := C113_neutrinos (exFile_book ofLong exScatter) (by simp [constantBook, exScatter])
    (by rw [exFile_events]; simp [exScatter]) true 4 (by simp [constantBook, exScatter])
  refine ⟨h, h1, ?_⟩
  rw [exFile_events] at h6
  rw [h2] at h5
  have hl : cs.length = 100 := by simpa using (congrArg List.length h5).symm
  have h7 := h6 33 cs[33] (by simp)
  have hw : h.width = 3 / 5 := by rw [Hist.width, h2, h3, h4]; norm_num
  have hc : (exScatter.map neutrinoEnergy).countP
      (within (h.lo + (33 : Nat) * h.width) (h.lo + ((33 : Nat) + 1) * h.width)) = 3 := by
    rw [h3, hw]
    norm_num [exScatter, neutrinoEnergy, within, List.countP_cons]
  rw [hc, hw] at h7
  have h8 := congrArg (fun l => l[33]?) h5
  simp only [List.getElem?_map, List.getElem?_range (show 33 < 100 by omega), Option.map_some,
    List.getElem?_eq_getElem (show 33 < cs.length by omega), Option.some.injEq] at h8
  rw [h8]
  have h9 : cs[33] = 5 / 2 * squareInverseMeV := by
    simp only [constantBook, exScatter, List.length_map, List.length_cons, List.length_nil] at h7
    norm_num at h7
    linarith
  rw [h9]

example (ofLong : Int → ℚ) : ∃ h, nuSpect exText ofLong (exRoot true)
    ⟨true, some ((exRoot true).encode (exHolds [] 2))⟩ true 4 = some (.ok h) ∧ ∀ k, h.content k = none :=
  C113_no_events (exFile_book ofLong []) rfl true 4 (by omega)

example (ofLong : Int → ℚ) : nuSpect exText ofLong (exRoot true)
    ⟨true, some ((exRoot true).encode (exHolds [sampleEvent, { sampleEvent with initial := [] }] 2))⟩ true 4 = some (.error (.exc .outOfRange)) :=
  C113_incomplete (exFile_book ofLong _) (by rw [exFile_events]; exact ⟨{ sampleEvent with initial := [] }, by simp, rfl⟩) true 4
    (by simp [constantBook])

/-- Two events in a HEPEVT file: nothing is shown. -/
example (ofLong : Int → ℚ) : ∃ h, nuSpect exTextInt ofLong ⟨fun _ => [], fun _ => none, fun _ => true⟩
    ⟨true, some (hepevtFile ratIntFmt [(sampleEvent, 3 / 2), (sampleEvent, 5 / 2)])⟩ true 4 = some (.ok h) ∧
    ∀ k, h.content k = some 0 :=
  C113_hepevt_violated (exHepevt_book ofLong _ rfl) (by simp) rfl (by simp [bookEvents, sampleEvent]) true 4 (by simp)

/-- A square root for these events. -/
def exSqrt (q : ℚ) : ℚ := if q = 400 then 20 else 5

theorem exSqrt_roots : Roots exSqrt exScatter := by
  intro e he p hp
  simp only [exScatter, List.mem_cons, List.not_mem_nil, or_false] at he
  rcases he with rfl | rfl | rfl <;> simp only [List.head?_cons, Option.some.injEq] at hp <;>
    rcases hp with rfl | rfl <;> norm_num [exSqrt, momentum2]

/-- The first two events: the integral is the whole cross section. -/
example (ofLong : Int → ℚ) : ∃ h, cosPlot exSqrt exText ofLong (exRoot true)
    ⟨true, some ((exRoot true).encode (exHolds (exScatter.take 2) 2))⟩ true 3 = some (.ok h) ∧
    ∃ cs : List ℚ, (List.range 10).map h.content = cs.map some ∧ cs.sum * h.width = 3 / 2 * squareInverseMeV := by
  obtain ⟨h, V, h1, -, -, -, h5, -, -, h8⟩ := C113_angles (exFile_book ofLong (exScatter.take 2))
    (by simp [constantBook, exScatter]) (by rw [exFile_events]; simp [exScatter]) (sqrt := exSqrt)
    (by rw [exFile_events]; exact fun e he => exSqrt_roots e (List.mem_of_mem_take he)) true 3 (by simp [constantBook, exScatter])
  refine ⟨h, h1, h8 ?_⟩
  rw [exFile_events] at h5
  intro x hx
  obtain ⟨i, hi, rfl⟩ := List.getElem_of_mem hx
  have hl := h5.length_eq
  have := List.Forall₂.get h5 (i := i) (hl ▸ hi) hi
  obtain ⟨nu, q, a1, a2, a3⟩ := this
  simp only [List.get_eq_getElem] at a1 a2 a3
  have hi' : i < 2 := by rw [← hl] at hi; simpa [exScatter] using hi
  have key : momentum2 nu ≠ 0 ∧ momentum2 q ≠ 0 ∧ dot nu q ^ 2 ≠ momentum2 nu * momentum2 q := by
    obtain rfl | rfl : i = 0 ∨ i = 1 := by omega
    all_goals
      simp only [exScatter, List.take, List.getElem_cons_zero, List.getElem_cons_succ, List.head?_cons, Option.some.injEq] at a1 a2
      subst a1 a2
      norm_num [momentum2, dot]
  constructor
  · intro hv
    rw [hv] at a3
    rcases a3 with a3 | a3
    · exact key.1 a3
    · exact key.2.1 a3
  · intro hv
    rw [hv] at a3
    exact key.2.2 ((cosine_bounds a3).2.2.1 rfl).1

/-- The third event: nothing is shown. -/
example (ofLong : Int → ℚ) : ∃ h, cosPlot exSqrt exText ofLong (exRoot true)
    ⟨true, some ((exRoot true).encode (exHolds (exScatter.drop 2) 2))⟩ true 3 = some (.ok h) ∧
    ∀ k < 10, h.content k = some 0 :=
  C113_forward_violated (exFile_book ofLong (exScatter.drop 2)) (by simp [constantBook, exScatter]) (by
      rw [exFile_events]
      simp only [exScatter, List.drop, List.mem_singleton, forall_eq, List.head?_cons, Option.some.injEq]
      exact ⟨_, _, rfl, rfl, by norm_num [dot, momentum2], by norm_num [dot]⟩) (sqrt := exSqrt)
    (by rw [exFile_events]; exact fun e he => exSqrt_roots e (List.mem_of_mem_drop he)) true 3 (by simp [constantBook, exScatter])

/-- The electrons have 5.5, 7.5 and 6.5 MeV: limits are chosen so that all are shown.  The photon is alone: 10³⁰ MeV. -/
example (ofLong : Int → ℚ) : (∃ h, fpSpect 11 exText ofLong (exRoot true)
      ⟨true, some ((exRoot true).encode (exHolds exScatter 2))⟩ true 4 = some (.ok (h, 3, 3)) ∧
      h.filled = [some (11 / 2), some (15 / 2), some (13 / 2)] ∧ h.automatic) ∧
    ∃ h m n, fpSpect 22 exText ofLong (exRoot true) ⟨true, some ((exRoot true).encode (exHolds exScatter 2))⟩ true 4 =
      some (.ok (h, m, n)) ∧ h.lo = 4 ∧ h.hi = 10 ^ 30 ∧ ¬ h.automatic := by
  constructor
  · obtain ⟨h, h1, h2, -, h3⟩ := C113_particles_partial (exFile_book ofLong exScatter) 11 true 4 (by simp [constantBook, exScatter])
    rw [exFile_events] at h1 h2 h3
    have hk : kineticEnergies 11 exScatter = [11 / 2, 15 / 2, 13 / 2] := by
      norm_num [kineticEnergies, exScatter, kineticEnergy]
    rw [hk] at h1 h2 h3
    exact ⟨h, h1, h2, h3 (by norm_num) (by norm_num)⟩
  · obtain ⟨h, m, n, h1, h2, h3, h4, -⟩ := C113_ascending_violated (exFile_book ofLong exScatter) 22 true 4
      (by simp [constantBook, exScatter]) (l := []) (top := 4) (by
        rw [exFile_events]; norm_num [kineticEnergies, exScatter, kineticEnergy]) (by simp) (by norm_num)
    exact ⟨h, m, n, h1, h2, h3, h4⟩

example (ofLong : Int → ℚ) : ∃ h, exHist exText ofLong (exRoot true)
    ⟨true, some ((exRoot true).encode (exHolds exScatter 2))⟩ true 4 = some (.ok h) ∧
    h.filled = [some 4, some 10, some 9] ∧ h.automatic := by
  obtain ⟨h, h1, h2, -, h3⟩ := C113_excitation (exFile_book ofLong exScatter) true 4 (by simp [constantBook, exScatter])
  rw [exFile_events] at h2 h3
  exact ⟨h, h1, h2, h3 (by norm_num [exScatter])⟩

example (num : ℚ → Str) (ofLong : Int → ℚ) : printEvents num exText ofLong (exRoot true)
    ⟨true, some ((exRoot true).encode (exHolds exScatter 2))⟩ true 4 =
    some (.ok (exScatter.zipIdx.flatMap (fun p => unlines (eventLines num p.1 p.2)))) := by
  have := C113_print_partial num (exFile_book ofLong exScatter) true 4 (by simp [constantBook, exScatter])
    (by rw [exFile_events]; norm_num [exScatter])
  rw [exFile_events] at this
  exact this

/-- One event of each of three channels. -/
example (ofLong : Int → ℚ) : ∃ r, recoSpectrum exText ofLong (exRoot true)
    ⟨true, some ((exRoot true).encode (exHolds exScatter 2))⟩ true 4 = some (.ok r) ∧
    r.allGamma = 1 ∧ r.oneN = 1 ∧ r.oneP = 1 ∧ r.other = 0 := by
  obtain ⟨r, h1, -, -, -, -, -, h2, h3, h4, h5⟩ := C113_reconstruction (exFile_book ofLong exScatter)
    (by simp [constantBook, exScatter]) (by rw [exFile_events]; simp [exScatter]) true 4 (by simp [constantBook, exScatter])
  rw [exFile_events] at h2 h3 h4 h5
  have e1 : times 1000190400 exScatter = 1 := by decide +kernel
  have e2 : times 1000190390 exScatter = 1 := by decide +kernel
  have e3 : times 1000180390 exScatter = 1 := by decide +kernel
  have e4 : (finalParticles exScatter).countP (fun p => p.pdg > 1000020040) = 3 := by decide +kernel
  exact ⟨r, h1, by omega, by omega, by omega, by omega⟩

/-- The second of the events: the reconstructed energy is wrong by the masses and by the energy of the neutron. -/
example : reconstructed exScatter[1] = 20 + (37216 + 15044 / 10000 - (1 / 2 + 36285 + 940)) - 2 := by
  have := C113_resolution exScatter[1] ⟨12, 20, 0, 0, 20, 0, 0⟩ ⟨1000180400, 37216, 0, 0, 0, 37216, 0⟩ rfl
    (by norm_num [exScatter]) (by norm_num [exScatter])
  rw [this]
  norm_num [exScatter, kineticEnergy]

example : hadronic [exScatter[1].final[0], exScatter[1].final[2]] = [2112] :=
  (C113_channels exScatter[1] (by norm_num [Known, exScatter, nucleons]) [exScatter[1].final[0]] [exScatter[1].final[2]]
    exScatter[1].final[1] rfl (by decide +kernel) (by decide +kernel)).2.1 rfl

end Marley.Props
