import Verif.Props.WidthLaw
import Verif.Props.Decayer

/-!
# C130: the law of whole de-excitations
-/

set_option autoImplicit false

namespace Marley.Props
open Marley Marley.Scheme Marley.Sampling Marley.Gammas Marley.Decay MeasureTheory
open Marley.Kin (OnShell SumsTo)

/-- At the energy of a level the last part of a de-excitation is the cascade from this level. -/
theorem finish_cascade {G : Type} {A : Arith} {E : Engine G} {D : Data} {s : Scheme ℝ}
    (ha : (s.levels.map (·.1)).Nodup)
    (hs : s.levels.Pairwise (fun x y => x.2.energy ≤ y.2.energy))
    (hd : ∀ x ∈ s.levels, ∀ y ∈ s.levels, x.2.energy = y.2.energy → x = y) {a : Nat} {l : Level ℝ}
    (hl : (a, l) ∈ s.levels) {ev : Event ℝ} {re : Particle ℝ} (hre : ev.final[1]? = some re)
    (hsch : D.scheme re.pdg = .ok (some s)) (fuel : Nat) (started : Bool) (g : G) :
    finishGammas A E fuel D started l.energy ev g = cascade A E D s re.charge fuel a ev g := by
  obtain ⟨b, m, h1, h2, h3⟩ := C23_closest hs (List.ne_nil_of_mem hl) l.energy
  have h4 := (h3 _ hl).1
  dsimp only at h4
  rw [sub_self, abs_zero] at h4
  have h5 : l.energy = m.energy := by
    have := abs_nonpos_iff.1 h4
    linarith
  have h6 := hd _ hl _ h2 h5
  cases h6
  unfold finishGammas
  rw [hre]
  dsimp only
  rw [hsch]
  dsimp only
  rw [h1]
  dsimp only
  rw [levelAt_listed ha hl]
  dsimp only
  rw [if_neg]
  rintro ⟨-, h⟩
  rw [sub_self, abs_zero] at h
  have : (0 : ℝ) < tolerance := by unfold tolerance; norm_num
  linarith

/-- C130 below the threshold: the de-excitation of a nucleus left in a known level is a gamma
cascade whose photons belong to a route with the probability that is the product of the branching
ratios along it. -/
theorem C130_bound {D : Data} {s : Scheme ℝ} (ha : (s.levels.map (·.1)).Nodup) (hd : Downward s)
    (hI : Intense s) (hs : s.levels.Pairwise (fun x y => x.2.energy ≤ y.2.energy))
    (hdis : ∀ x ∈ s.levels, ∀ y ∈ s.levels, x.2.energy = y.2.energy → x = y)
    (hD : Gammas.Distinct s) (he : ∀ l ∈ s.levels, 0 ≤ l.2.energy) {mAtom me th : ℝ} {ev : Event ℝ}
    {ej re : Particle ℝ} {rest : List (Particle ℝ)} (hev : ev.final = ej :: re :: rest)
    (hre : OnShell re) (hpid : re.pdg = Pdg.nucleusPid s.Z s.A) (hp1 : 1000000000 < re.pdg)
    (hp2 : re.pdg < 2000000000) (hsch : D.scheme re.pdg = .ok (some s))
    (hA : Mass.atomicMassPid D.mass re.pdg true = .ok (some mAtom))
    (hme : Mass.particleMass D.mass Mass.ELECTRON = .ok me) (hM : 0 < mAtom - re.charge * me)
    {a : Nat} {l : Level ℝ} (hl : (a, l) ∈ s.levels) (hE0 : 0 < l.energy) (hEx : ev.Ex = l.energy)
    (hm : re.mass = mAtom + l.energy - re.charge * me)
    (hth : Mass.unboundThresholdPid D.mass (D.frags.map (·.pid)) re.pdg = .ok th)
    (hbound : ev.Ex ≤ th) {fuel N : Nat} (hn : s.levels.length < fuel)
    (hN : 3 * s.levels.length ≤ N) {is : List Nat} {p : ℝ} (hp : Way s a is p) :
    draws N {d | ∃ ps re' us', process exact replay fuel D ev (List.ofFn d) =
        some ({ ev with final := ej :: re' :: (rest ++ ps) }, .ok us') ∧
      Chain s a is re ps re'} = ENNReal.ofReal p := by
  have hr1 : ev.final[1]? = some re := by rw [hev]; rfl
  have ht : (0 : ℝ) < tolerance := by unfold tolerance; norm_num
  have key : ∀ g, process exact replay fuel D ev g
      = cascade exact replay D s re.charge fuel a ev g := by
    intro g
    rw [process_ion exact replay fuel D (by rw [hEx]; exact hE0) hr1 hp1 hp2
      (m := mAtom - re.charge * me) ⟨mAtom, me, hA, hme, rfl⟩ g, if_neg (by
        rw [hm, hEx, show mAtom + l.energy - re.charge * me - (mAtom - re.charge * me + l.energy) = 0
          by ring, abs_zero]
        linarith)]
    obtain ⟨n, rfl⟩ : ∃ n, fuel = n + 1 := ⟨fuel - 1, by omega⟩
    unfold deexcite
    rw [hsch]
    dsimp only
    rw [hth]
    dsimp only
    rw [show (decide (ev.Ex > th) || (some s).isNone) = false by simp [hbound]]
    unfold hfLoop
    rw [if_neg (by simp)]
    dsimp only
    rw [if_pos rfl, hEx]
    exact finish_cascade ha hs hdis hl hr1 hsch _ _ g
  simp only [key]
  rw [hpid] at hA
  exact C127_law ha hd hI hD he hA hme hM hl hn hN hev hre hm hp

theorem exit_iff {s : Channels} (hl : 2 ≤ s.2.length) (h : 0 < s.1) {u : ℝ} {rest g : List ℝ}
    {x : Exit} : sampleExit replay s (u :: rest) = .ok (x, g) ↔
      (∃ i, pick (s.2.map (·.width)) u = .ok i ∧ s.2[i]? = some x) ∧ g = rest := by
  rw [sampleExit_iff h]
  unfold pickFrom
  rw [if_neg (by rw [List.length_map]; omega)]
  simp only [replay, List.headD_cons, List.tail_cons]
  cases hp : pick (s.2.map (·.width)) u with
  | error e => simp
  | ok j =>
    simp only [Except.ok.injEq, Prod.mk.injEq]
    constructor
    · rintro ⟨i, ⟨rfl, rfl⟩, h2⟩
      exact ⟨⟨j, rfl, h2⟩, rfl⟩
    · rintro ⟨⟨i, rfl, h2⟩, rfl⟩
      exact ⟨j, ⟨rfl, rfl⟩, h2⟩

open Classical in
theorem filter_kind {xs : List Exit} (hn : (xs.map (·.kind)).Nodup) {x : Exit} (hx : x ∈ xs) :
    ((xs.filter fun y => decide (y.kind = x.kind)).map (·.width)).sum = x.width := by
  induction xs with
  | nil => simp at hx
  | cons y t ih =>
    rw [List.map_cons, List.nodup_cons] at hn
    rw [List.filter_cons]
    rcases List.mem_cons.1 hx with rfl | h
    · have : t.filter (fun y => decide (y.kind = x.kind)) = [] := by
        rw [List.filter_eq_nil_iff]
        intro z hz
        simp only [decide_eq_true_eq]
        intro hc
        exact hn.1 (hc ▸ List.mem_map_of_mem hz)
      simp [this]
    · have hne : y.kind ≠ x.kind := fun hc => hn.1 (hc ▸ List.mem_map_of_mem h)
      rw [if_neg (by simpa using hne)]
      exact ih hn.2 h

/-- C130 above the threshold: a nucleus decays through a channel to a known level, and the photons
that follow belong to a route, with the probability that is the width of the channel divided by
the sum of the widths, times the product of the branching ratios along the route. -/
theorem C130_compound {D : Data} {s : Scheme ℝ} (ha : (s.levels.map (·.1)).Nodup) (hd : Downward s)
    (hI : Intense s) (hs : s.levels.Pairwise (fun x y => x.2.energy ≤ y.2.energy))
    (hdis : ∀ x ∈ s.levels, ∀ y ∈ s.levels, x.2.energy = y.2.energy → x = y)
    (hD : Gammas.Distinct s) (he : ∀ l ∈ s.levels, 0 ≤ l.2.energy)
    -- the nucleus before the decay
    {ev : Event ℝ} {ej re : Particle ℝ} {rest : List (Particle ℝ)}
    (hev : ev.final = ej :: re :: rest) (hre : OnShell re) (hpos : 0 < re.mass)
    (hp1 : 1000000000 < re.pdg) (hp2 : re.pdg < 2000000000) {mi me th : ℝ}
    (hmi : Mass.atomicMassPid D.mass re.pdg true = .ok (some mi))
    (hme : Mass.particleMass D.mass Mass.ELECTRON = .ok me)
    (hmass : re.mass = mi - re.charge * me + ev.Ex) {ds : Option (Scheme ℝ)}
    (hds : D.scheme re.pdg = .ok ds)
    (hth : Mass.unboundThresholdPid D.mass (D.frags.map (·.pid)) re.pdg = .ok th)
    (hun : th < ev.Ex) (hcut : cutoff < ev.Ex)
    -- the channels
    {ch : Channels} (hb : build D re ev.Ex ev.twoJ ev.parity = .ok ch)
    (hw : ∀ x ∈ ch.2, 0 ≤ x.width) (htot : 0 < (ch.2.map (·.width)).sum)
    (hnd : (ch.2.map (·.kind)).Nodup) (h2 : 2 ≤ ch.2.length) {k : Kind} {w : ℝ}
    (hk : (⟨k, w⟩ : Exit) ∈ ch.2) {a : Nat} {lev : Level ℝ}
    (hlev : k = .gamLevel lev ∨ ∃ f, k = .fragLevel f lev) (hl : (a, lev) ∈ s.levels)
    (hsch : D.scheme (k.final re.pdg) = .ok (some s))
    (hfin : k.final re.pdg = Pdg.nucleusPid s.Z s.A)
    -- the masses of the products
    {m mAtom mf : ℝ} {q : Int} (hm : Mass.particleMass D.mass k.emitted = .ok m) (hm0 : 0 ≤ m)
    (hq : Pdg.charge k.emitted = .ok q)
    (hA : Mass.atomicMassPid D.mass (k.final re.pdg) true = .ok (some mAtom))
    (hM : 0 < mAtom - (re.charge - Pdg.getZ k.emitted : Int) * me)
    (hmf : mf = mAtom - (re.charge - Pdg.getZ k.emitted : Int) * me + lev.energy)
    (hopen : m + mf ≤ re.mass) {fuel N : Nat} (hn : s.levels.length + 1 < fuel)
    (hN : 3 * s.levels.length ≤ N) {is : List Nat} {p : ℝ} (hp : Way s a is p) :
    draws (N + 3) {d | (∃ x g, sampleExit replay ch (List.ofFn d) = .ok (x, g) ∧ x.kind = k) ∧
        ∃ em nu ps re' us', process exact replay fuel D ev (List.ofFn d) =
          some ({ ev with final := ej :: re' :: (rest ++ em :: ps) }, .ok us') ∧
        em.pdg = k.emitted ∧ nu.mass = mf ∧ SumsTo em nu re ∧ Chain s a is nu ps re'}
      = ENNReal.ofReal (w / (ch.2.map (·.width)).sum) * ENNReal.ofReal p := by
  classical
  have hr1 : ev.final[1]? = some re := by rw [hev]; rfl
  have ht : (0 : ℝ) < tolerance := by unfold tolerance; norm_num
  have hcp : (0 : ℝ) < cutoff := by unfold cutoff; norm_num
  have hch : 0 < ch.1 := by rw [(build_total hb).1]; exact htot
  have hwn : 0 ≤ w := hw _ hk
  have hlen : is.length ≤ s.levels.length := (way_length hd ha hp hl).trans List.countP_le_length
  have hcount : s.levels.countP (fun m => decide (m.2.energy < lev.energy)) ≤ s.levels.length :=
    List.countP_le_length
  have hev0 : 0 ≤ lev.energy := he _ hl
  -- the choice of the channel
  have hchoice : unit {u | ∃ i x, pick (ch.2.map (·.width)) u = .ok i ∧ ch.2[i]? = some x ∧
      x.kind = k} = ENNReal.ofReal (w / (ch.2.map (·.width)).sum) := by
    have h := C129_channel hb hw htot (fun y => decide (y = k)) []
    rw [filter_kind hnd hk] at h
    rw [← h]
    congr 1
    ext u
    simp only [Set.mem_ofPred_eq, exit_iff h2 hch, decide_eq_true_eq]
    constructor
    · rintro ⟨i, x, h3, h4, h5⟩
      exact ⟨x, [], ⟨⟨i, h3, h4⟩, rfl⟩, h5⟩
    · rintro ⟨x, g, ⟨⟨i, h3, h4⟩, -⟩, h5⟩
      exact ⟨i, x, h3, h4, h5⟩
  rw [← hchoice, ← C127_route ha hI hp (N := N) (by omega),
    ← draws_skip N, ← draws_skip (N + 1), ← draws_succ (N + 2)]
  apply measure_congr
  filter_upwards [draws_inside (N + 3)] with d hu
  have hof : List.ofFn d = d 0 :: d 1 :: d 2 :: List.ofFn fun j : Fin N => d j.succ.succ.succ := by
    rw [List.ofFn_succ, List.ofFn_succ, List.ofFn_succ]
    rfl
  rw [hof] at hu
  have hu1 := hu (d 1) (by simp)
  have hus : ∀ u ∈ List.ofFn (fun j : Fin N => d j.succ.succ.succ), 0 < u ∧ u < 1 := fun u h =>
    hu u (by simp only [List.mem_cons]; exact Or.inr (Or.inr (Or.inr h)))
  -- the decay
  have hrun : (∃ i x, pick (ch.2.map (·.width)) (d 0) = .ok i ∧ ch.2[i]? = some x ∧ x.kind = k) →
      ∃ em nu js ps re' us', process exact replay fuel D ev (List.ofFn d) =
          some ({ ev with final := ej :: re' :: (rest ++ em :: ps) }, .ok us') ∧
        em.pdg = k.emitted ∧ nu.mass = mf ∧ SumsTo em nu re ∧ Chain s a js nu ps re' ∧
        OnShell nu ∧ Followed s a (List.ofFn fun j : Fin N => d j.succ.succ.succ) js := by
    rintro ⟨i, x, k1, k2, k3⟩
    obtain ⟨n, rfl⟩ : ∃ n, fuel = n + 2 := ⟨fuel - 2, by omega⟩
    have hx : sampleExit replay ch (List.ofFn d) = .ok (x, d 1 :: d 2 ::
        List.ofFn fun j : Fin N => d j.succ.succ.succ) := by
      rw [hof]
      exact (exit_iff h2 hch).2 ⟨⟨i, k1, k2⟩, rfl⟩
    have hc : (d 1 * (1 - -1) + -1) ^ 2 ≤ 1 := by nlinarith [hu1.1, hu1.2]
    obtain ⟨em, nu, c1, c2, c3, c4, c5, c6, -⟩ := C47_conserves (t := re)
      (a := ⟨k.emitted, 0, 0, 0, 0, m, q⟩)
      (b := ⟨k.final re.pdg, mf, 0, 0, 0, mf, re.charge - Pdg.getZ k.emitted⟩)
      (d 2 * (2 * Real.pi - 0) + 0) hre hpos hm0 (by dsimp only; linarith) hopen hc
    have hsp := decay_species c1
    have hprep : prepareProducts exact replay D (parent D re ev.Ex ev.twoJ ev.parity) k re lev.energy
        (d 1 :: d 2 :: List.ofFn fun j : Fin N => d j.succ.succ.succ)
        = .ok ((em, nu), List.ofFn fun j : Fin N => d j.succ.succ.succ) := by
      unfold prepareProducts
      rw [hm, hq, hme]
      dsimp only
      rw [show (parent D re ev.Ex ev.twoJ ev.parity).pdg = re.pdg from rfl,
        show (parent D re ev.Ex ev.twoJ ev.parity).q = re.charge from rfl, hA]
      dsimp only
      rw [← hmf]
      simp only [uniform, exact, id, replay, List.headD_cons, List.tail_cons, ite_self]
      rw [c1]
    have hdec : hfDecay exact replay (n + 2) D re ev.Ex ev.twoJ ev.parity (List.ofFn d)
        = some (.ok ((⟨lev.energy, lev.twoJ, lev.parity, em, nu⟩, false),
          List.ofFn fun j : Fin N => d j.succ.succ.succ)) := by
      unfold hfDecay
      rw [hb]
      dsimp only
      rw [hx]
      dsimp only
      rw [k3]
      rcases hlev with rfl | ⟨f, rfl⟩ <;>
      · simp only [Kind.decay, levelDecay, hprep, Kind.continuum]
    have hf1 : (Scheme.emit ev nu em).final = ej :: nu :: (rest ++ [em]) := by
      simp [Scheme.emit, hev]
    have hnpdg : nu.pdg = k.final re.pdg := hsp.2.1
    have hnq : nu.charge = re.charge - Pdg.getZ k.emitted := hsp.2.2.2
    have hnm : nu.mass = mf := hsp.2.2.1
    have hproc : process exact replay (n + 2) D ev (List.ofFn d)
        = cascade exact replay D s nu.charge (n + 2) a (Scheme.emit ev nu em)
          (List.ofFn fun j : Fin N => d j.succ.succ.succ) := by
      rw [process_ion exact replay (n + 2) D (by linarith) hr1 hp1 hp2
        (m := mi - re.charge * me) ⟨mi, me, hmi, hme, rfl⟩, if_neg (by
          rw [hmass, sub_self, abs_zero]; linarith)]
      unfold deexcite
      rw [hds]
      dsimp only
      rw [hth]
      dsimp only
      rw [show (decide (ev.Ex > th) || ds.isNone) = true by simp [hun]]
      unfold hfLoop
      rw [if_pos ⟨rfl, hcut⟩, hr1]
      dsimp only
      rw [hdec]
      dsimp only
      unfold hfLoop
      rw [if_neg (by simp)]
      dsimp only
      rw [if_pos rfl]
      exact finish_cascade ha hs hdis hl (by rw [hf1]; rfl) (by rw [hnpdg]; exact hsch) _ _ _
    obtain ⟨js, ps, re', us', f1, f2, f3⟩ := C127_follows (D := D) ha hd hI he
      (q := nu.charge) (mAtom := mAtom) (me := me) (by rw [← hfin]; exact hA) hme
      (by rw [hnq]; exact hM) hl hus (n := n + 2) (by omega) (by rw [List.length_ofFn]; omega) hf1 c3
      (by rw [hnm, hmf, hnq]; ring)
    refine ⟨em, nu, js, ps, re', us', ?_, hsp.1.1, hnm, c6, f3, c3, f2⟩
    rw [hproc, f1]
    simp [Scheme.emit]
  apply propext
  constructor
  · rintro ⟨⟨x, g, j1, j2⟩, em, nu, ps, re', us', g1, g2, g3, g4, g5⟩
    rw [hof] at j1
    obtain ⟨⟨i, j3, j4⟩, -⟩ := (exit_iff h2 hch).1 j1
    obtain ⟨em', nu', js, ps', re'', us'', r1, r2, r3, r4, r5, r6, r7⟩ := hrun ⟨i, x, j3, j4, j2⟩
    refine ⟨⟨i, x, j3, j4, j2⟩, ?_⟩
    rw [r1] at g1
    simp only [Option.some.injEq, Prod.mk.injEq, Event.mk.injEq, List.cons.injEq,
      List.append_cancel_left_eq, true_and] at g1
    obtain ⟨⟨⟨-, rfl, rfl⟩, -⟩, -⟩ := g1
    obtain ⟨e1, e2, e3, e4⟩ := r4
    obtain ⟨e5, e6, e7, e8⟩ := g4
    have := chain_unique ha hD g5 r5 (by linarith) (by linarith) (by linarith) (by linarith)
      (by rw [g3, r3])
    rw [this]
    exact r7
  · rintro ⟨⟨i, x, j3, j4, j5⟩, j6⟩
    have j6 : Followed s a (List.ofFn fun j : Fin N => d j.succ.succ.succ) is := j6
    obtain ⟨em, nu, js, ps, re', us', r1, r2, r3, r4, r5, r6, r7⟩ := hrun ⟨i, x, j3, j4, j5⟩
    rw [followed_unique ha hI j6 r7]
    refine ⟨⟨x, d 1 :: d 2 :: List.ofFn fun j : Fin N => d j.succ.succ.succ, ?_, j5⟩, em, nu, ps, re', us', r1, r2, r3, r4, r5⟩
    · rw [hof]
      exact (exit_iff h2 hch).2 ⟨⟨i, j3, j4⟩, rfl⟩

/-! ### Examples -/

theorem ladder_threshold : Mass.unboundThresholdPid ladderData.mass [] 1000190400 =
    .ok Mass.dblMax := rfl

/-- A nucleus in the highest of three levels sends out two photons in three cases out of four. -/
example : draws 9 {d | ∃ ps re' us', process exact replay 4
      { ladderData with scheme := fun _ => .ok (some exLadder) }
      ⟨[], [⟨11, 1, 0, 0, 0, 1, -1⟩, ⟨1000190400, 102.5, 0, 0, 0, 102.5, 1⟩], 3, 2, ⟨true⟩⟩
      (List.ofFn d) = some (⟨[], ⟨11, 1, 0, 0, 0, 1, -1⟩ :: re' :: ([] ++ ps), 3, 2, ⟨true⟩⟩, .ok us') ∧
    Chain exLadder 0 [0, 0] ⟨1000190400, 102.5, 0, 0, 0, 102.5, 1⟩ ps re'} =
      ENNReal.ofReal (3 / 4) := by
  have hpid : (1000190400 : Int) = Pdg.nucleusPid 19 40 := by decide
  have hbig : (3 : ℝ) ≤ Mass.dblMax := by
    have h : (2 : ℝ) ^ 1 ≤ 2 ^ 1023 := pow_le_pow_right₀ one_le_two (by norm_num)
    rw [pow_one] at h
    norm_num [Mass.dblMax]
    generalize (2 : ℝ) ^ 1023 = x at *
    linarith
  refine C130_bound (D := { ladderData with scheme := fun _ => .ok (some exLadder) }) ladder_nodup
    ladder_down ladder_intense (by simp [exLadder]) ?_ ladder_distinct (by simp [exLadder]) rfl
    ⟨by norm_num, by norm_num, by norm_num⟩ hpid (by norm_num) (by norm_num) rfl
    (mAtom := 100) (me := 1 / 2) (th := Mass.dblMax)
    (by have := ladder_masses.1; rw [← hpid] at this; exact this) ladder_masses.2 (by norm_num)
    (l := ⟨3, 2, ⟨true⟩, [⟨2, 3, some 2⟩, ⟨3, 1, some 1⟩]⟩) (by simp [exLadder]) (by norm_num) rfl
    (by norm_num) ladder_threshold hbig (by simp [exLadder]) (by simp [exLadder])
    ladder_way
  intro x hx y hy h
  simp only [exLadder, List.mem_cons, List.not_mem_nil, or_false] at hx hy
  rcases hx with rfl | rfl | rfl <;> rcases hy with rfl | rfl | rfl <;> norm_num at h <;> rfl

/-- Potassium-39 with an excited level at 5 MeV. -/
def exStep : Scheme ℝ := ⟨19, 39, [(0, ⟨0, 3, ⟨true⟩, []⟩), (1, ⟨5, 3, ⟨true⟩, [⟨5, 1, some 0⟩]⟩),
  (2, ⟨100, 0, ⟨true⟩, []⟩)], 3⟩

/-- Like `pairData`, with this scheme for potassium-39. -/
noncomputable def stepData : Data where
  mass := unitData.mass
  frags := [⟨2112, 1, ⟨true⟩⟩]
  scheme := fun n => .ok (some (if n = 1000190390 then exStep else twoLevels n))
  optical := fun _ _ _ _ _ _ => 1
  density := fun _ _ _ _ => 1
  strength := fun _ _ _ _ => 1
  fragLMax := 5
  gamLMax := 5

/-- Potassium-40 at rest with 10 MeV of excitation energy. -/
noncomputable def stepNucleus : Particle ℝ :=
  ⟨1000190400, 40 * Mass.microAmu + 10, 0, 0, 0, 40 * Mass.microAmu + 10, 0⟩

theorem step_build : ∃ s, build stepData stepNucleus 10 2 ⟨false⟩ = .ok s ∧
    s.2 = [⟨.fragLevel 2112 ⟨0, 3, ⟨true⟩, []⟩, 3 * (1 / (2 * Real.pi))⟩,
      ⟨.fragLevel 2112 ⟨5, 3, ⟨true⟩, [⟨5, 1, some 0⟩]⟩, 3 * (1 / (2 * Real.pi))⟩,
      ⟨.gamLevel ⟨0, 0, ⟨true⟩, []⟩, 1 / (2 * Real.pi)⟩] := by
  have hr : remnant 1000190400 2112 = 1000190390 := by decide
  have hs : Mass.separationEnergy unitData.mass (Pdg.getZ 1000190400) (Pdg.getA 1000190400) 2112 true
      = .ok (some 0) := unit_separation
  have hf : ∀ (e : ℝ) (gs : List (Gamma ℝ)), e < 10 → fragDiscreteWidth stepData
      (parent stepData stepNucleus 10 2 ⟨false⟩) 2112 ⟨e, 3, ⟨true⟩, gs⟩
        = .ok (3 * (1 / (2 * Real.pi))) := by
    intro e gs he
    unfold fragDiscreteWidth maxExf
    rw [show fragment stepData 2112 = some ⟨2112, 1, ⟨true⟩⟩ by simp [fragment, stepData],
      show Mass.separationEnergyPid stepData.mass (parent stepData stepNucleus 10 2 ⟨false⟩).pdg
        2112 true = .ok (some 0) from hs]
    simp only [Option.map_some]
    rw [if_neg (by simp only [parent]; linarith), jLoop_eq]
    have : waves (parent stepData stepNucleus 10 2 ⟨false⟩).P (Parity.mul ⟨true⟩ ⟨true⟩) 1
        |(parent stepData stepNucleus 10 2 ⟨false⟩).twoJ - 3|
        ((parent stepData stepNucleus 10 2 ⟨false⟩).twoJ + 3) = [(1, 1), (1, 3), (3, 5)] := by
      show waves ⟨false⟩ (Parity.mul ⟨true⟩ ⟨true⟩) 1 |2 - 3| (2 + 3) = _
      decide +kernel
    rw [this]
    simp [stepData, parent, initialDensity]
    ring
  have hg : gamDiscreteWidth stepData (parent stepData stepNucleus 10 2 ⟨false⟩)
      ⟨0, 0, ⟨true⟩, []⟩ = 1 / (2 * Real.pi) := by
    unfold gamDiscreteWidth
    rw [if_neg (by norm_num [parent]), mpolLoop_eq]
    have : upTo 0 (max 1 (|(parent stepData stepNucleus 10 2 ⟨false⟩).twoJ - 0|.tdiv 2))
        (((parent stepData stepNucleus 10 2 ⟨false⟩).twoJ + 0).tdiv 2) = [1] := by
      show upTo 0 (max 1 (|(2 : Int) - 0|.tdiv 2)) (((2 : Int) + 0).tdiv 2) = [1]
      decide +kernel
    rw [this]
    simp [stepData, parent, initialDensity]
  have hm : Mass.particleMass stepData.mass 2112 = .ok (Mass.microAmu * 1) := by
    simp only [Mass.particleMass, stepData, unitData]
    norm_num
  have hsch1 : stepData.scheme 1000190390 = .ok (some exStep) := by simp [stepData]
  have hsch2 : stepData.scheme 1000190400 = .ok (some (twoLevels 1000190400)) := by simp [stepData]
  have hpdg : (parent stepData stepNucleus 10 2 ⟨false⟩).pdg = 1000190400 := rfl
  have hEx : (parent stepData stepNucleus 10 2 ⟨false⟩).Ex = 10 := rfl
  have hfr : stepData.frags = [⟨2112, 1, ⟨true⟩⟩] := rfl
  have hs' : Mass.separationEnergy stepData.mass (Pdg.getZ 1000190400) (Pdg.getA 1000190400)
      2112 true = .ok (some 0) := hs
  have hd : ¬ initialDensity stepData stepNucleus.pdg 10 2 ⟨false⟩ = 0 := one_ne_zero
  unfold build channels
  rw [if_neg hd]
  generalize parent stepData stepNucleus 10 2 ⟨false⟩ = c at *
  generalize stepData = D at *
  have hl1 : contMin (some exStep) = 100 := by simp [contMin, exStep]
  have hl2 : contMin (some (twoLevels 1000190400)) = 100 := by simp [contMin, twoLevels]
  have hfrag : ∃ t, addFragment D c ⟨2112, 1, ⟨true⟩⟩ (0, []) = .ok (t,
        [⟨.fragLevel 2112 ⟨0, 3, ⟨true⟩, []⟩, 3 * (1 / (2 * Real.pi))⟩,
          ⟨.fragLevel 2112 ⟨5, 3, ⟨true⟩, [⟨5, 1, some 0⟩]⟩, 3 * (1 / (2 * Real.pi))⟩]) := by
    unfold addFragment
    rw [hm]
    dsimp only
    rw [hpdg, hs']
    dsimp only
    rw [hr, hsch1]
    dsimp only
    rw [hEx, if_neg (by norm_num)]
    unfold addChannels
    rw [hl1]
    simp only [exStep]
    unfold levelLoop
    rw [if_pos (by norm_num), hf _ _ (by norm_num)]
    dsimp only
    unfold levelLoop
    rw [if_pos (by norm_num), hf _ _ (by norm_num)]
    dsimp only
    unfold levelLoop
    rw [if_neg (by norm_num)]
    dsimp only
    rw [if_neg (by norm_num)]
    exact ⟨_, rfl⟩
  obtain ⟨t, hfrag⟩ := hfrag
  rw [hfr]
  unfold fragmentLoop
  rw [hfrag]
  dsimp only
  unfold fragmentLoop
  dsimp only
  unfold addGammas
  rw [hpdg, hsch2]
  dsimp only
  rw [hEx]
  unfold addChannels
  rw [hl2]
  simp only [twoLevels]
  rw [if_pos trivial]
  unfold levelLoop
  rw [if_pos (by norm_num), hg]
  dsimp only
  unfold levelLoop
  rw [if_neg (by norm_num)]
  dsimp only
  rw [if_neg (by norm_num)]
  exact ⟨_, rfl, rfl⟩

theorem step_nodup : (exStep.levels.map (·.1)).Nodup := by simp [exStep]

theorem step_distinct : Gammas.Distinct exStep := by
  intro x hx i j g h y z hi hj _ _ _ _ _
  have hlen : ∀ (k : Nat) (g : Gamma ℝ), x.2.gammas[k]? = some g → k = 0 := by
    intro k g hk
    have := (List.getElem?_eq_some_iff.1 hk).1
    simp only [exStep, List.mem_cons, List.not_mem_nil, or_false] at hx
    rcases hx with rfl | rfl | rfl <;> simp at this ⊢; omega
  rw [hlen i g hi, hlen j h hj]

theorem step_way : Way exStep 1 [0] 1 := by
  have h1 : Way exStep 0 [] 1 := .stop (l := ⟨0, 3, ⟨true⟩, []⟩) (by simp [exStep]) rfl
  have h2 := Way.step (s := exStep) (a := 1) (b := 0) (i := 0) (l := ⟨5, 3, ⟨true⟩, [⟨5, 1, some 0⟩]⟩)
    (g := ⟨5, 1, some 0⟩) (by simp [exStep]) rfl rfl h1
  have e : (1 : ℝ) / (intensities ⟨5, 3, ⟨true⟩, [⟨5, 1, some 0⟩]⟩).sum * 1 = 1 := by
    norm_num [intensities]
  rw [← e]
  exact h2

/-- In three cases out of seven a neutron comes out and then a photon. -/
example : ∃ ch mf, build stepData stepNucleus 10 2 ⟨false⟩ = .ok ch ∧
    draws (9 + 3) {d | (∃ x g, sampleExit replay ch (List.ofFn d) = .ok (x, g) ∧
          x.kind = .fragLevel 2112 ⟨5, 3, ⟨true⟩, [⟨5, 1, some 0⟩]⟩) ∧
        ∃ em nu ps re' us', process exact replay 5 stepData
            ⟨[], [⟨11, 1, 0, 0, 0, 1, -1⟩, stepNucleus], 10, 2, ⟨false⟩⟩ (List.ofFn d) =
          some (⟨[], ⟨11, 1, 0, 0, 0, 1, -1⟩ :: re' :: ([] ++ em :: ps), 10, 2, ⟨false⟩⟩, .ok us') ∧
        em.pdg = 2112 ∧ nu.mass = mf ∧ SumsTo em nu stepNucleus ∧ Chain exStep 1 [0] nu ps re'}
      = ENNReal.ofReal (3 / 7) := by
  obtain ⟨ch, h1, h2⟩ := step_build
  have hpi := Real.pi_pos
  have hp : (0 : ℝ) < 1 / (2 * Real.pi) := by positivity
  have hu : (0 : ℝ) < Mass.microAmu := by norm_num [Mass.microAmu]
  have e1 : Pdg.getA 1000190400 = 40 := by decide
  have e2 : Pdg.getA (remnant 1000190400 2112) = 39 := by decide
  have e3 : Pdg.getZ 2112 = 0 := by decide
  have hth : Mass.unboundThresholdPid stepData.mass (stepData.frags.map (·.pid)) 1000190400
      = .ok 0 := by
    have hs : Mass.separationEnergy stepData.mass (Pdg.getZ 1000190400) (Pdg.getA 1000190400) 2112 true
      = .ok (some 0) := unit_separation
    have hd : (0 : ℝ) < Mass.dblMax := by norm_num [Mass.dblMax]
    simp [Mass.unboundThresholdPid, Mass.unboundThreshold, stepData, Mass.thresholdLoop] at hs ⊢
    simp [hs, hd]
  have h := C130_compound (D := stepData) (s := exStep) step_nodup (by simp [Downward, exStep])
    (by
      intro x hx
      simp only [exStep, List.mem_cons, List.not_mem_nil, or_false] at hx
      rcases hx with rfl | rfl | rfl <;> simp [intensities])
    (by simp [exStep]; norm_num)
    (by
      intro x hx y hy h
      simp only [exStep, List.mem_cons, List.not_mem_nil, or_false] at hx hy
      rcases hx with rfl | rfl | rfl <;> rcases hy with rfl | rfl | rfl <;> norm_num at h <;> rfl)
    step_distinct (by simp [exStep])
    (ev := ⟨[], [⟨11, 1, 0, 0, 0, 1, -1⟩, stepNucleus], 10, 2, ⟨false⟩⟩) rfl
    (by constructor <;> simp [stepNucleus] <;> positivity) (by simp only [stepNucleus]; positivity)
    (by norm_num [stepNucleus]) (by norm_num [stepNucleus]) (mi := 40 * Mass.microAmu) (me := 0)
    (by simp [Mass.atomicMassPid, Mass.lookupPid, Mass.toMeV, stepData, unitData, e1, stepNucleus])
    (by simp [Mass.particleMass, Mass.ELECTRON, stepData, unitData]) (by simp [stepNucleus]) rfl hth
    (by norm_num) (by norm_num [cutoff]) h1
    (by
      rw [h2]
      intro x hx
      simp only [List.mem_cons, List.not_mem_nil, or_false] at hx
      rcases hx with rfl | rfl | rfl <;> dsimp only <;> linarith)
    (by
      rw [h2]
      simp only [List.map_cons, List.map_nil, List.sum_cons, List.sum_nil]
      linarith)
    (by rw [h2]; simp) (by rw [h2]; simp)
    (k := .fragLevel 2112 ⟨5, 3, ⟨true⟩, [⟨5, 1, some 0⟩]⟩) (w := 3 * (1 / (2 * Real.pi)))
    (by rw [h2]; simp) (Or.inr ⟨_, rfl⟩) (by simp [exStep])
    (by simp only [stepData, Kind.final, stepNucleus]; rw [if_pos (by decide)])
    (by decide) (m := Mass.microAmu * 1)
    (by simp [Mass.particleMass, Kind.emitted, stepData, unitData]) (by linarith) (q := 0) (by decide)
    (mAtom := 39 * Mass.microAmu)
    (by simp [Mass.atomicMassPid, Mass.lookupPid, Mass.toMeV, stepData, unitData, Kind.final,
      stepNucleus, e2])
    (by simp; exact hu) rfl (by simp [stepNucleus]; linarith) (fuel := 5) (N := 9) (by simp [exStep])
    (by simp [exStep]) step_way
  refine ⟨ch, _, h1, h.trans ?_⟩
  rw [h2, ENNReal.ofReal_one, mul_one]
  congr 1
  simp only [List.map_cons, List.map_nil, List.sum_cons, List.sum_nil]
  field_simp
  norm_num

end Marley.Props
