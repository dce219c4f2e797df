import Verif.Lemmas.JobConfig
import Verif.Props.Target
import Verif.Props.Rotation
import Mathlib.Data.List.Dedup

/-!
# C86 target, direction and cut-offs of a job
-/

set_option autoImplicit false

namespace Marley.Props
open Marley Marley.Job
open Marley.Json (Str JVal hasKey at? mapFind)
open Marley.Reaction (Reaction)
open Marley.Rot

/-! ## Specification -/

/-- The object has this value under the key. -/
def HasValue (j : JVal ℝ) (k : Str) (x : JVal ℝ) : Prop := ∃ m, j = .obj m ∧ mapFind m k = some x

/-- There is no such key. -/
def Absent (j : JVal ℝ) (k : Str) : Prop := hasKey j k = false

/-- The atom a reaction happens on, if its code is that of a nuclide. -/
def atomOf (r : Reaction) : Int :=
  match r with
  | .nuclear r => r.pdgB
  | .electron r => r.atom

/-- A number in the configuration. -/
def GivenNumber (x : JVal ℝ) (y : ℝ) : Prop :=
  x = .float y ∨ ∃ n, x = .int n ∧ y = Json.longToDouble n

/-! ## Lemmas -/

theorem HasValue.has {j : JVal ℝ} {k : Str} {x : JVal ℝ} (h : HasValue j k x) : hasKey j k = true := by
  obtain ⟨m, rfl, h⟩ := h
  simp [hasKey, h]

theorem HasValue.at {j : JVal ℝ} {k : Str} {x : JVal ℝ} (h : HasValue j k x) : at? j k = .ok x := by
  obtain ⟨m, rfl, h⟩ := h
  simp [at?, h]

theorem GivenNumber.value {x : JVal ℝ} {y : ℝ} (h : GivenNumber x y) : Source.toDouble? x = some y := by
  rcases h with rfl | ⟨n, rfl, rfl⟩ <;> rfl

theorem toInt32_id {n : Int} (h : intMin ≤ n ∧ n ≤ intMax) : toInt32 n = n := by
  simp only [toInt32, intMin, intMax] at *
  omega

theorem mem_insertAtom {a x : Int} : ∀ {l : List Int}, x ∈ insertAtom a l ↔ x = a ∨ x ∈ l := by
  intro l
  induction l with
  | nil => simp [insertAtom]
  | cons b t ih =>
    simp only [insertAtom]
    split_ifs with h1 h2
    · simp
    · simp [h2]
    · rw [List.mem_cons, ih, List.mem_cons]; tauto

theorem sorted_insertAtom {a : Int} : ∀ {l : List Int}, l.Pairwise (· < ·) →
    (insertAtom a l).Pairwise (· < ·) := by
  intro l
  induction l with
  | nil => intro _; simp [insertAtom]
  | cons b t ih =>
    intro h
    rw [List.pairwise_cons] at h
    simp only [insertAtom]
    split_ifs with h1 h2
    · rw [List.pairwise_cons]
      refine ⟨fun x hx => ?_, List.pairwise_cons.2 h⟩
      rcases List.mem_cons.1 hx with rfl | hx
      · exact h1
      · exact h1.trans (h.1 x hx)
    · exact List.pairwise_cons.2 h
    · rw [List.pairwise_cons]
      refine ⟨fun x hx => ?_, ih h.2⟩
      rcases mem_insertAtom.1 hx with rfl | hx
      · omega
      · exact h.1 x hx

theorem targetOf_ok {r : Reaction} {a : Int} (h : targetOf r = .ok a) : a = atomOf r := by
  cases r with
  | nuclear r => exact atom_ok h
  | electron r => simpa [targetOf, atomOf] using h.symm

theorem atomSet_ok : ∀ {rs : List Reaction} {s : List Int}, (∀ r ∈ rs, ∃ a, targetOf r = .ok a) →
    s.Pairwise (· < ·) → ∃ s', atomSet s rs = .ok s' ∧ s'.Pairwise (· < ·) ∧
      ∀ a, a ∈ s' ↔ a ∈ s ∨ ∃ r ∈ rs, atomOf r = a := by
  intro rs
  induction rs with
  | nil => intro s _ hs; exact ⟨s, rfl, hs, by simp⟩
  | cons r rs ih =>
    intro s h hs
    obtain ⟨a, ha⟩ := h r List.mem_cons_self
    obtain ⟨s', h1, h2, h3⟩ := ih (s := insertAtom a s) (fun r hr => h r (List.mem_cons_of_mem _ hr))
      (sorted_insertAtom hs)
    refine ⟨s', by simp only [atomSet, ha, h1], h2, fun b => ?_⟩
    rw [h3, mem_insertAtom, targetOf_ok ha]
    simp only [List.mem_cons, exists_eq_or_imp]
    constructor
    · rintro ((h | h) | h)
      · exact Or.inr (Or.inl h.symm)
      · exact Or.inl h
      · exact Or.inr (Or.inr h)
    · rintro (h | h | h)
      · exact Or.inl (Or.inr h)
      · exact Or.inl (Or.inl h.symm)
      · exact Or.inr h

theorem logAtoms_ok {log : Bool} : ∀ {l : List Int}, (log = true → ∀ a ∈ l, Named a) →
    logAtoms log l = .ok () := by
  intro l
  induction l with
  | nil => intro _; rfl
  | cons a l ih =>
    intro h
    have h1 : logAtom log a = .ok () := by
      cases log with
      | false => rfl
      | true =>
        obtain ⟨s, hs⟩ := h rfl a List.mem_cons_self
        simp [logAtom, hs]
    simp only [logAtoms, h1]
    exact ih (fun hl b hb => h hl b (List.mem_cons_of_mem _ hb))

theorem fraction_of_perm {m : List (Int × ℝ)} {l : List (Int × ℝ)} (h : m.Perm l)
    (hl : (l.map (·.1)).Nodup) : (∀ a f, (a, f) ∈ l → Target.fraction m a = f) ∧
      ∀ a, a ∉ l.map (·.1) → Target.fraction m a = 0 := by
  have hm : (m.map (·.1)).Nodup := (h.map _).nodup_iff.2 hl
  constructor
  · intro a f hf
    have := lookup_of_mem hm (h.mem_iff.2 hf)
    simp [Target.fraction, this]
  · intro a ha
    have : m.lookup a = none := by
      rw [← Option.not_isSome_iff_eq_none, lookup_isSome_iff]
      exact fun hc => ha ((h.map _).mem_iff.1 hc)
    simp [Target.fraction, this]

/-! ## The target -/

/-- C86: without a specification the target is made of all atoms of the configured
reactions, each with the same share, and of nothing else. -/
theorem C86_default_target (log : Bool) {j : JVal ℝ} {rs : List Reaction}
    (hj : Absent j "target".toList) (hne : rs ≠ [])
    (ht : ∀ r ∈ rs, ∃ a, targetOf r = .ok a) (hn : log = true → ∀ r ∈ rs, Named (atomOf r)) :
    ∃ m, prepareTarget log j rs = .ok (some m) ∧
      (∀ r ∈ rs, Target.fraction m (atomOf r) = 1 / ((rs.map atomOf).dedup.length : ℝ)) ∧
      ∀ a, (∀ r ∈ rs, atomOf r ≠ a) → Target.fraction m a = 0 := by
  obtain ⟨s, h1, h2, h3⟩ := atomSet_ok (s := []) ht List.Pairwise.nil
  have hnd : s.Nodup := h2.imp (fun h => h.ne)
  have hperm : s.Perm (rs.map atomOf).dedup := by
    refine (List.perm_ext_iff_of_nodup hnd (List.nodup_dedup _)).2 fun a => ?_
    rw [h3, List.mem_dedup, List.mem_map]
    simp
  have hs0 : s ≠ [] := by
    obtain ⟨r, t, rfl⟩ := List.exists_cons_of_ne_nil hne
    have := (h3 (atomOf r)).2 (Or.inr ⟨r, List.mem_cons_self, rfl⟩)
    exact List.ne_nil_of_mem this
  have e1 : (s.map (fun a => (a, (1 : ℝ)))).map (·.1) = s := by simp [Function.comp_def]
  have e2 : (s.map (fun a => (a, (1 : ℝ)))).map (·.2) = List.replicate s.length 1 := by
    simp [Function.comp_def]
  have hacc : Acceptable s (List.replicate s.length (1 : ℝ)) :=
    ⟨by simp, hs0, hnd, fun f hf => by rw [List.eq_of_mem_replicate hf]; norm_num,
      ⟨1, List.mem_replicate.2 ⟨by simpa using hs0, rfl⟩, one_pos⟩⟩
  obtain ⟨m, hm, hmp⟩ := C70_accepted_unnamed log hacc (by
    intro _ x hx h0
    rw [List.eq_of_mem_replicate (List.of_mem_zip hx).2] at h0
    norm_num at h0)
  have hsum : (List.replicate s.length (1 : ℝ)).sum = s.length := by simp
  rw [hsum] at hmp
  have hz : (s.zip ((List.replicate s.length (1 : ℝ)).map (· / (s.length : ℝ)))) =
      s.map (fun a => (a, 1 / (s.length : ℝ))) := by
    rw [List.map_replicate]
    generalize 1 / (s.length : ℝ) = q
    clear hs0 hnd h2 hperm h1 h3 hm hmp hacc hsum e1 e2
    induction s with
    | nil => rfl
    | cons a s ih =>
      simp only [List.length_cons, List.replicate_succ, List.zip_cons_cons, List.map_cons]
      rw [ih]
  rw [hz] at hmp
  have hkeys : (m.map (·.1)).Perm s := by
    have := hmp.map (·.1)
    rwa [List.map_map, show ((fun x : Int × ℝ => x.1) ∘ fun a => (a, 1 / (s.length : ℝ))) = id from rfl,
      List.map_id] at this
  obtain ⟨f1, f2⟩ := fraction_of_perm hmp (by
    rw [List.map_map, show ((fun x : Int × ℝ => x.1) ∘ fun a => (a, 1 / (s.length : ℝ))) = id from rfl,
      List.map_id]; exact hnd)
  refine ⟨m, ?_, ?_, ?_⟩
  · have hlog : logAtoms log (m.map (·.1)) = .ok () := logAtoms_ok fun hl a ha => by
      have := (h3 a).1 (hkeys.mem_iff.1 ha)
      simp only [List.not_mem_nil, false_or] at this
      obtain ⟨r, hr, rfl⟩ := this
      exact hn hl r hr
    rw [prepareTarget, hj]
    simp only [Bool.false_eq_true, if_false, hne, h1, finishTarget, e1, e2, hm, hlog]
  · intro r hr
    have hmem : atomOf r ∈ s := (h3 _).2 (Or.inr ⟨r, hr, rfl⟩)
    rw [f1 (atomOf r) _ (List.mem_map.2 ⟨_, hmem, rfl⟩), hperm.length_eq]
  · intro a ha
    refine f2 a ?_
    rw [List.map_map, show ((fun x : Int × ℝ => x.1) ∘ fun a => (a, 1 / (s.length : ℝ))) = id from rfl,
      List.map_id]
    intro h
    have := (h3 a).1 h
    simp only [List.not_mem_nil, false_or] at this
    obtain ⟨r, hr, e⟩ := this
    exact ha r hr e

theorem listedAtoms_ok : ∀ {codes : List Int} {fs : List (JVal ℝ)} {xs : List ℝ},
    (∀ c ∈ codes, intMin ≤ c ∧ c ≤ intMax ∧ 0 < Pdg.getA c) → List.Forall₂ GivenNumber fs xs →
    codes.length = fs.length → listedAtoms ((codes.map JVal.int).zip fs) = .ok (codes.zip xs) := by
  intro codes
  induction codes with
  | nil => intro fs xs _ h hl; simp [listedAtoms]
  | cons c codes ih =>
    intro fs xs hc h hl
    cases h with
    | nil => simp at hl
    | @cons f x fs xs h1 h2 =>
      have hc' := hc c List.mem_cons_self
      have ht : Target.atom (toInt32 c) = .ok c := by
        rw [toInt32_id ⟨hc'.1, hc'.2.1⟩, Target.atom, if_neg (by omega)]
      simp only [List.map_cons, List.zip_cons_cons, listedAtoms, Json.toLong?, ht, h1.value,
        ih (fun d hd => hc d (List.mem_cons_of_mem _ hd)) h2 (by simpa using hl)]

/-- C86: an explicit specification of nuclides (codes in the range of `int`) and
fractions gives each nuclide its fraction divided by the sum and no other atom
anything; it is refused with `marley::Error` exactly if the lists differ in length
or are empty, a code is not that of a nuclide, a nuclide is repeated, a fraction is
negative or none is positive. -/
theorem C86_explicit_target (log : Bool) {j spec : JVal ℝ} {codes : List Int} {fs : List (JVal ℝ)}
    {xs : List ℝ} (rs : List Reaction) (hj : HasValue j "target".toList spec)
    (hn : HasValue spec "nuclides".toList (.arr (codes.map JVal.int)))
    (hf : HasValue spec "atom_fractions".toList (.arr fs)) (hx : List.Forall₂ GivenNumber fs xs)
    (hr : ∀ c ∈ codes, intMin ≤ c ∧ c ≤ intMax) (hs : ∀ c ∈ codes, Named c) :
    ((∀ c ∈ codes, 0 < Pdg.getA c) ∧ Acceptable codes xs →
      ∃ m, prepareTarget log j rs = .ok (some m) ∧
        (∀ a f, (a, f) ∈ codes.zip xs → Target.fraction m a = f / xs.sum) ∧
        ∀ a, a ∉ codes → Target.fraction m a = 0) ∧
    (¬ ((∀ c ∈ codes, 0 < Pdg.getA c) ∧ Acceptable codes xs) →
      prepareTarget log j rs = .error .marleyError) := by
  have hl : fs.length = xs.length := hx.length_eq
  obtain ⟨mm, rfl, -⟩ := id hn
  have hprep : prepareTarget log j rs =
      match (if codes.length ≠ fs.length then .error .marleyError
        else if codes.length < 1 then .error .marleyError
        else listedAtoms ((codes.map JVal.int).zip fs) : Res (List (Int × ℝ))) with
      | .error e => .error e
      | .ok l => finishTarget log l := by
    simp only [prepareTarget, hj.has, hj.at, if_true, explicitAtoms, hn.has, hn.at, hf.has, hf.at,
      List.length_map]
    generalize (if codes.length ≠ fs.length then .error .marleyError
        else if codes.length < 1 then .error .marleyError
        else listedAtoms ((codes.map JVal.int).zip fs) : Res (List (Int × ℝ))) = q
    cases q <;> rfl
  rw [hprep]
  by_cases hlen : codes.length = fs.length
  swap
  · rw [if_pos hlen]
    refine ⟨fun h => ?_, fun _ => rfl⟩
    exact absurd (h.2.sameLength.trans hl.symm) hlen
  rw [if_neg (by simpa using hlen)]
  by_cases h0 : codes.length < 1
  · rw [if_pos h0]
    refine ⟨fun h => ?_, fun _ => rfl⟩
    exact absurd (List.length_eq_zero_iff.1 (by omega)) h.2.nonempty
  rw [if_neg h0]
  by_cases hA : ∀ c ∈ codes, 0 < Pdg.getA c
  · rw [listedAtoms_ok (fun c hc => ⟨(hr c hc).1, (hr c hc).2, hA c hc⟩) hx hlen]
    have z1 : (codes.zip xs).map (·.1) = codes := zip_fst (hlen.trans hl)
    have z2 : (codes.zip xs).map (·.2) = xs := zip_snd (hlen.trans hl)
    simp only [finishTarget, z1, z2]
    constructor
    · rintro ⟨-, hacc⟩
      obtain ⟨m, hm⟩ := (C70_accepted log xs hs).1.2 hacc
      obtain ⟨p1, p2, -, -, p5, -⟩ := C70_fractions log hs hm
      refine ⟨m, ?_, p1, p2⟩
      have := logAtoms_ok (log := log) (l := m.map (·.1)) fun _ a ha => hs a (p5.mem_iff.1 ha)
      simp only [hm, this]
    · intro h
      rw [(C70_accepted log xs hs).2 (fun hacc => h ⟨hA, hacc⟩)]
  · refine ⟨fun h => absurd h.1 hA, fun _ => ?_⟩
    have bad : ∀ {codes : List Int} {fs : List (JVal ℝ)} {xs : List ℝ},
        (∀ c ∈ codes, intMin ≤ c ∧ c ≤ intMax) → ¬ (∀ c ∈ codes, 0 < Pdg.getA c) →
        List.Forall₂ GivenNumber fs xs → codes.length = fs.length →
        listedAtoms ((codes.map JVal.int).zip fs) = .error .marleyError := by
      intro codes
      induction codes with
      | nil => intro fs xs _ h; simp at h
      | cons c codes ih =>
        intro fs xs hr h hx hlen
        cases hx with
        | nil => simp at hlen
        | @cons f x fs xs h1 h2 =>
          simp only [List.map_cons, List.zip_cons_cons, listedAtoms, Json.toLong?,
            toInt32_id (hr c List.mem_cons_self), h1.value, Target.atom]
          by_cases hc : Pdg.getA c ≤ 0
          · rw [if_pos hc]
          · rw [if_neg hc]
            have := ih (fun d hd => hr d (List.mem_cons_of_mem _ hd)) (by
              intro hall
              apply h
              intro d hd
              rcases List.mem_cons.1 hd with rfl | hd
              · omega
              · exact hall d hd) h2 (by simpa using hlen)
            simp only [this]
    rw [bad hr hA hx hlen]

/-- C86: a specification that is not an object, or lacks one of the two arrays, or
has something other than an array there, or lists something that is not an integer
or not a number, is refused with `marley::Error`. -/
theorem C86_target_rejected (log : Bool) {j spec : JVal ℝ} (rs : List Reaction)
    (hj : HasValue j "target".toList spec)
    (hbad : (∀ m, spec ≠ .obj m) ∨ Absent spec "nuclides".toList ∨ Absent spec "atom_fractions".toList ∨
      (∃ x, HasValue spec "nuclides".toList x ∧ ∀ l, x ≠ .arr l) ∨
      (∃ x, HasValue spec "atom_fractions".toList x ∧ ∀ l, x ≠ .arr l) ∨
      (∃ l x, HasValue spec "nuclides".toList (.arr l) ∧ x ∈ l ∧ ∀ n, x ≠ .int n) ∨
      (∃ l x, HasValue spec "atom_fractions".toList (.arr l) ∧ x ∈ l ∧ ∀ y, ¬ GivenNumber x y)) :
    prepareTarget log j rs = .error .marleyError := by
  have hprep : prepareTarget log j rs =
      match explicitAtoms spec with
      | .error e => .error e
      | .ok l => finishTarget log l := by
    simp only [prepareTarget, hj.has, hj.at, if_true]
    cases explicitAtoms spec <;> rfl
  rw [hprep]
  suffices h : explicitAtoms spec = .error .marleyError by rw [h]
  cases spec with
  | obj m =>
    have nn : ∀ x, mapFind m "nuclides".toList = some x → HasValue (.obj m) "nuclides".toList x :=
      fun x h => ⟨m, rfl, h⟩
    have nf : ∀ x, mapFind m "atom_fractions".toList = some x →
      HasValue (.obj m) "atom_fractions".toList x := fun x h => ⟨m, rfl, h⟩
    cases h1 : mapFind m "nuclides".toList with
    | none =>
      have : hasKey (.obj m : JVal ℝ) "nuclides".toList = false := by simp only [hasKey, h1, Option.isSome_none]
      rw [explicitAtoms, this]; rfl
    | some x =>
      have a1 := nn x h1
      simp only [explicitAtoms, a1.has, a1.at, if_true]
      cases x with
      | arr ns =>
        dsimp only
        cases h2 : mapFind m "atom_fractions".toList with
        | none =>
          have : hasKey (.obj m : JVal ℝ) "atom_fractions".toList = false := by simp only [hasKey, h2, Option.isSome_none]
          rw [this]; rfl
        | some y =>
          have a2 := nf y h2
          simp only [a2.has, a2.at, if_true]
          cases y with
          | arr fs =>
            dsimp only
            by_cases hlen : ns.length = fs.length
            swap
            · rw [if_pos hlen]
            rw [if_neg (by simpa using hlen)]
            by_cases h0 : ns.length < 1
            · rw [if_pos h0]
            rw [if_neg h0]
            have hb : (∃ x ∈ ns, ∀ n, x ≠ .int n) ∨ (∃ x ∈ fs, ∀ y, ¬ GivenNumber x y) := by
              rcases hbad with h | h | h | ⟨x, h, hx⟩ | ⟨x, h, hx⟩ | ⟨l, x, h, hx⟩ | ⟨l, x, h, hx⟩
              · exact absurd rfl (h m)
              · rw [Absent, a1.has] at h; cases h
              · rw [Absent, a2.has] at h; cases h
              · have := h.at.symm.trans a1.at; cases this; exact absurd rfl (hx ns)
              · have := h.at.symm.trans a2.at; cases this; exact absurd rfl (hx fs)
              · have := h.at.symm.trans a1.at; cases this; exact Or.inl ⟨x, hx⟩
              · have := h.at.symm.trans a2.at; cases this; exact Or.inr ⟨x, hx⟩
            clear * - hb hlen
            induction ns generalizing fs with
            | nil =>
              cases fs with
              | nil => simp at hb
              | cons f fs => simp at hlen
            | cons n ns ih =>
              cases fs with
              | nil => simp at hlen
              | cons f fs =>
                simp only [List.zip_cons_cons, listedAtoms]
                cases h1 : Json.toLong? n with
                | none => rfl
                | some k =>
                  dsimp only
                  simp only [Target.atom]
                  split_ifs with hA
                  · rfl
                  · dsimp only
                    cases h2 : Source.toDouble? f with
                    | none => rfl
                    | some y =>
                      dsimp only
                      rw [ih fs (by simpa using hlen) ?_]
                      rcases hb with ⟨x, hx, h⟩ | ⟨x, hx, h⟩
                      · rcases List.mem_cons.1 hx with rfl | hx
                        · cases x <;> simp [Json.toLong?] at h1
                          exact absurd rfl (h _)
                        · exact Or.inl ⟨x, hx, h⟩
                      · rcases List.mem_cons.1 hx with rfl | hx
                        · exfalso
                          cases x <;> simp [Source.toDouble?] at h2
                          · exact h _ (Or.inr ⟨_, rfl, rfl⟩)
                          · exact h _ (Or.inl rfl)
                        · exact Or.inr ⟨x, hx, h⟩
          | _ => rfl
      | _ => rfl
  | _ => rfl

/-- The range of codes matters: an integer outside the range of `int` is taken modulo
2^32 and accepted as another nuclide. -/
theorem C86_wrap_violated : ∃ (j spec : JVal ℝ) (n : Int), n ≠ 1000180400 ∧
    HasValue j "target".toList spec ∧ HasValue spec "nuclides".toList (.arr [.int n]) ∧
    prepareTarget false j [] = .ok (some [(1000180400, 1)]) := by
  refine ⟨.obj [("target".toList, .obj [("nuclides".toList, .arr [.int 5295147696]),
    ("atom_fractions".toList, .arr [.float 1])])], _, 5295147696, by decide, ⟨_, rfl, rfl⟩,
    ⟨_, rfl, rfl⟩, ?_⟩
  have h : prepareTarget false (.obj [("target".toList, .obj [("nuclides".toList, .arr [.int 5295147696]),
    ("atom_fractions".toList, .arr [.float 1])])]) [] =
      match listedAtoms [(.int 5295147696, .float 1)] with
      | .error e => .error e
      | .ok l => finishTarget false l := rfl
  rw [h]
  have h2 : Target.atom (toInt32 5295147696) = .ok 1000180400 := by decide +kernel
  simp only [listedAtoms, Json.toLong?, h2, Source.toDouble?]
  have h3 : Target.make false [1000180400] [(1 : ℝ)] = .ok [(1000180400, 1)] := by
    have h1 : ¬ ((1 : ℝ) < 0) := by norm_num
    have h2 : ¬ ((1 : ℝ) ≤ 0) := by norm_num
    simp [Target.make, Target.sumFractions, Target.fill, Target.insert, h1, h2]
  simp only [finishTarget, List.map_cons, List.map_nil, h3]
  rfl

/-! ## The direction -/

/-- The component given in the configuration, or else the old one. -/
def Component (d : JVal ℝ) (k : Str) (old x : ℝ) : Prop :=
  (∃ v, HasValue d k v ∧ GivenNumber v x) ∨ Absent d k ∧ x = old

theorem Component.ok {d : JVal ℝ} {k : Str} {old x : ℝ} (h : Component d k old x) :
    component d k old = .ok x := by
  rcases h with ⟨v, h1, h2⟩ | ⟨h1, rfl⟩
  · simp only [component, h1.has, h1.at, if_true, h2.value]
  · rw [component, h1]; rfl

/-- C86: an object gives the components of the direction; those it does not mention
are kept.  The direction of the generator is then that of the vector, unless it is
zero, which is refused with `marley::Error`.  The text `isotropic` asks for random
directions; without the key nothing changes; any other value is refused. -/
theorem C86_direction (r : Rotator) (j : JVal ℝ) :
    (∀ m x y z, HasValue j "direction".toList (.obj m) → Component (.obj m) ['x'] r.dir.x x →
      Component (.obj m) ['y'] r.dir.y y → Component (.obj m) ['z'] r.dir.z z →
      ((⟨x, y, z⟩ : V3).Nonzero → ∃ r', prepareDirection r j = .ok r' ∧
        IsDirection ⟨x, y, z⟩ r'.dir ∧ r'.randomize = r.randomize) ∧
      (¬ (⟨x, y, z⟩ : V3).Nonzero → prepareDirection r j = .error .marleyError)) ∧
    (HasValue j "direction".toList (.str "isotropic".toList) →
      prepareDirection r j = .ok { r with randomize := true }) ∧
    (Absent j "direction".toList → prepareDirection r j = .ok r) ∧
    (∀ x, HasValue j "direction".toList x → (∀ m, x ≠ .obj m) →
      (∀ s, x = .str s → Json.jsonEscape s ≠ "isotropic".toList) →
      prepareDirection r j = .error .marleyError) ∧
    (∀ m k x, HasValue j "direction".toList (.obj m) → k ∈ [['x'], ['y'], ['z']] →
      HasValue (.obj m) k x → (∀ y, ¬ GivenNumber x y) → prepareDirection r j = .error .marleyError) := by
  refine ⟨?_, ?_, ?_, ?_, ?_⟩
  · intro m x y z h hx hy hz
    have e : prepareDirection r j = r.setDirection ⟨x, y, z⟩ := by
      simp only [prepareDirection, h.has, h.at, if_true, hx.ok, hy.ok, hz.ok]
    rw [e]
    constructor
    · intro hnz
      obtain ⟨r', h'⟩ := setDirection_ok (r := r) hnz
      exact ⟨r', h', (rotInv_setDirection h').2⟩
    · intro hz
      simp only [V3.Nonzero, not_not] at hz
      obtain ⟨rfl, rfl, rfl⟩ := hz
      simp [Rotator.setDirection, Rot.normalize]
  · intro h
    have : Json.jsonEscape "isotropic".toList = "isotropic".toList := by decide +kernel
    simp only [prepareDirection, h.has, h.at, if_true, this]
  · intro h
    rw [prepareDirection, h]; rfl
  · intro x h h1 h2
    simp only [prepareDirection, h.has, h.at, if_true]
    cases x with
    | obj m => exact absurd rfl (h1 m)
    | str s => dsimp only; rw [if_neg (h2 s rfl)]
    | _ => rfl
  · intro m k x h hk hx hbad
    simp only [prepareDirection, h.has, h.at, if_true]
    have cbad : ∀ old, component (.obj m) k old = .error .marleyError := by
      intro old
      have : Source.toDouble? x = none := by
        cases x with
        | int n => exact absurd (Or.inr ⟨n, rfl, rfl⟩) (hbad _)
        | float y => exact absurd (Or.inl rfl) (hbad y)
        | _ => rfl
      simp only [component, hx.has, hx.at, if_true, this]
    have cany : ∀ k old, (∃ y, component (.obj m) k old = .ok y) ∨
        component (.obj m) k old = .error .marleyError := by
      intro k old
      cases h1 : mapFind m k with
      | none => left; exact ⟨old, by rw [component, show hasKey (.obj m : JVal ℝ) k = false by simp [hasKey, h1]]; rfl⟩
      | some y =>
        have hv : HasValue (.obj m) k y := ⟨m, rfl, h1⟩
        simp only [component, hv.has, hv.at, if_true]
        cases Source.toDouble? y with
        | none => exact Or.inr rfl
        | some z => exact Or.inl ⟨z, rfl⟩
    simp only [List.mem_cons, List.not_mem_nil, or_false] at hk
    rcases hk with rfl | rfl | rfl
    · rw [cbad]
    · rcases cany ['x'] r.dir.x with ⟨y, e⟩ | e
      · rw [e]; dsimp only; rw [cbad]
      · rw [e]
    · rcases cany ['x'] r.dir.x with ⟨y, e⟩ | e
      · rw [e]; dsimp only
        rcases cany ['y'] r.dir.y with ⟨y, e⟩ | e
        · rw [e]; dsimp only; rw [cbad]
        · rw [e]
      · rw [e]

/-! ## The cut-offs -/

/-- C86: each cut-off is the integer given, which must not be below 0 for fragments
and below 1 for gamma rays; without the key the old one is kept; anything else is
refused with `marley::Error` (integers in the range of `int`). -/
theorem C86_cutoffs (j : JVal ℝ) (old : Int × Int) {f g : Option (JVal ℝ)}
    (hf : match f with
      | some x => HasValue j "fragment_lmax".toList x
      | none => Absent j "fragment_lmax".toList)
    (hg : match g with
      | some x => HasValue j "gamma_lmax".toList x
      | none => Absent j "gamma_lmax".toList)
    (hr : ∀ n, (f = some (.int n) ∨ g = some (.int n)) → intMin ≤ n ∧ n ≤ intMax) :
    (∀ a b, (f = none ∧ a = old.1 ∨ f = some (.int a) ∧ 0 ≤ a) →
      (g = none ∧ b = old.2 ∨ g = some (.int b) ∧ 1 ≤ b) → prepareStructure j old = .ok (a, b)) ∧
    (¬ (∃ a b, (f = none ∧ a = old.1 ∨ f = some (.int a) ∧ 0 ≤ a) ∧
      (g = none ∧ b = old.2 ∨ g = some (.int b) ∧ 1 ≤ b)) →
      prepareStructure j old = .error .marleyError) := by
  have key : ∀ (k : Str) (least o : Int) (x : Option (JVal ℝ)),
      (match x with | some x => HasValue j k x | none => Absent j k) →
      (∀ n, x = some (.int n) → intMin ≤ n ∧ n ≤ intMax) →
      (∀ a, (x = none ∧ a = o ∨ x = some (.int a) ∧ least ≤ a) → cutoff j k least o = .ok a) ∧
      ((¬ ∃ a, (x = none ∧ a = o ∨ x = some (.int a) ∧ least ≤ a)) →
        cutoff j k least o = .error .marleyError) := by
    intro k least o x hx hr
    cases x with
    | none =>
      have : Absent j k := hx
      refine ⟨fun a ha => ?_, fun h => absurd ⟨o, Or.inl ⟨rfl, rfl⟩⟩ h⟩
      rw [cutoff, this]
      have : a = o := by simpa using ha
      rw [this]; rfl
    | some x =>
      have h : HasValue j k x := hx
      cases x with
      | int n =>
        have e : cutoff j k least o = if n < least then .error .marleyError else .ok n := by
          simp only [cutoff, h.has, h.at, if_true, Json.toLong?, toInt32_id (hr n rfl)]
        rw [e]
        refine ⟨fun a ha => ?_, fun h => ?_⟩
        · simp only [reduceCtorEq, false_and, Option.some.injEq, JVal.int.injEq, false_or] at ha
          rw [if_neg (by omega), ha.1]
        · refine if_pos ?_
          by_contra hc
          exact h ⟨n, Or.inr ⟨rfl, by omega⟩⟩
      | _ =>
        refine ⟨fun a ha => ?_, fun _ => ?_⟩
        · simp at ha
        · simp only [cutoff, h.has, h.at, if_true, Json.toLong?]
  obtain ⟨f1, f2⟩ := key _ 0 old.1 f hf (fun n h => hr n (Or.inl h))
  obtain ⟨g1, g2⟩ := key _ 1 old.2 g hg (fun n h => hr n (Or.inr h))
  constructor
  · intro a b ha hb
    rw [prepareStructure, f1 a ha]
    dsimp only
    rw [g1 b hb]
  · intro h
    by_cases hf : ∃ a, (f = none ∧ a = old.1 ∨ f = some (.int a) ∧ 0 ≤ a)
    · obtain ⟨a, ha⟩ := hf
      rw [prepareStructure, f1 a ha]
      dsimp only
      rw [g2 (fun ⟨b, hb⟩ => h ⟨a, b, ha, hb⟩)]
    · rw [prepareStructure, f2 hf]

/-- The range of the cut-offs matters: an integer outside the range of `int` is taken
modulo 2^32, so that a huge one is accepted as a small one. -/
theorem C86_cutoff_wrap_violated : ∃ (j : JVal ℝ) (n : Int), n ≠ 3 ∧
    HasValue j "fragment_lmax".toList (.int n) ∧ prepareStructure j (5, 5) = .ok (3, 5) :=
  ⟨.obj [("fragment_lmax".toList, .int 4294967299)], 4294967299, by decide, ⟨_, rfl, rfl⟩, rfl⟩

/-- C86: without a specification and without reactions the target is left alone. -/
theorem C86_no_reactions (log : Bool) {j : JVal ℝ} (hj : Absent j "target".toList) :
    prepareTarget log j [] = .ok none := by
  rw [prepareTarget, hj]; rfl

/-- C67: the list of reaction files must be there and must be a list that is not empty;
only `null` stands for no reactions. -/
theorem C67_key (v : Env) (j : JVal ℝ) :
    (Absent j "reactions".toList → prepareReactions v j = .error .marleyError) ∧
    (HasValue j "reactions".toList .null → prepareReactions v j = .ok []) ∧
    (∀ x, HasValue j "reactions".toList x → x ≠ .null → (∀ l, x = .arr l → l = []) →
      prepareReactions v j = .error .marleyError) := by
  refine ⟨fun h => by rw [prepareReactions, h]; rfl, fun h => ?_, fun x h hn hl => ?_⟩
  · simp only [prepareReactions, h.has, h.at, if_true]
  · simp only [prepareReactions, h.has, h.at, if_true]
    cases x with
    | null => exact absurd rfl hn
    | arr l => rw [hl l rfl]
    | _ => rfl

/-! ## Concrete cases -/

/-- Hypotheses of `C67_key` and `C86_no_reactions`. -/
example : Absent (.obj []) "reactions".toList ∧ Absent (.obj []) "target".toList ∧
    HasValue (.obj [("reactions".toList, .null)]) "reactions".toList .null ∧
    HasValue (.obj [("reactions".toList, .str ['a'])]) "reactions".toList (.str ['a']) :=
  ⟨rfl, rfl, ⟨_, rfl, rfl⟩, ⟨_, rfl, rfl⟩⟩

/-- Hypotheses of the default target: reactions on two atoms. -/
example : ∃ rs : List Reaction, rs.length = 3 ∧ Absent (.obj []) "target".toList ∧
    (∀ r ∈ rs, ∃ a, targetOf r = .ok a) ∧ (rs.map atomOf).dedup.length = 2 := by
  have h : ∀ a : Int, ∃ r : Reaction, atomOf r = a ∧ targetOf r = .ok a := fun a =>
    ⟨.electron ⟨12, 12, a, 0, 0, 0, 0, 0, 0⟩, rfl, rfl⟩
  obtain ⟨r1, h1, h1'⟩ := h 1000180400
  obtain ⟨r2, h2, h2'⟩ := h 1000190400
  refine ⟨[r1, r2, r1], rfl, rfl, ?_, ?_⟩
  · intro r hr
    simp only [List.mem_cons, List.not_mem_nil, or_false] at hr
    rcases hr with rfl | rfl | rfl
    · exact ⟨_, h1'⟩
    · exact ⟨_, h2'⟩
    · exact ⟨_, h1'⟩
  · simp only [List.map_cons, List.map_nil, h1, h2]; decide

/-- Hypotheses of the explicit target. -/
example : ∃ j spec : JVal ℝ, HasValue j "target".toList spec ∧
    HasValue spec "nuclides".toList (.arr ([1000180400, 1000190400].map JVal.int)) ∧
    HasValue spec "atom_fractions".toList (.arr [.int 1, .float (1 / 2)]) ∧
    List.Forall₂ GivenNumber [.int 1, .float (1 / 2)] [1, 1 / 2] ∧
    Acceptable [1000180400, 1000190400] ([1, 1 / 2] : List ℝ) ∧
    (∀ c ∈ ([1000180400, 1000190400] : List Int), Named c ∧ 0 < Pdg.getA c) := by
  refine ⟨.obj [("target".toList, .obj [("nuclides".toList, .arr ([1000180400, 1000190400].map JVal.int)),
    ("atom_fractions".toList, .arr [.int 1, .float (1 / 2)])])], _, ⟨_, rfl, rfl⟩, ⟨_, rfl, rfl⟩,
    ⟨_, rfl, rfl⟩, ?_, ?_, ?_⟩
  · refine .cons (Or.inr ⟨1, rfl, ?_⟩) (.cons (Or.inl rfl) .nil)
    have : Json.longToDouble 1 = 1 := by decide +kernel
    rw [this]; norm_num
  · refine ⟨rfl, by simp, by decide, ?_, ⟨1, by simp, by norm_num⟩⟩
    intro f hf
    simp only [List.mem_cons, List.not_mem_nil, or_false] at hf
    rcases hf with rfl | rfl <;> norm_num
  · intro c hc
    simp only [List.mem_cons, List.not_mem_nil, or_false] at hc
    rcases hc with rfl | rfl
    · exact ⟨⟨"40Ar".toList, by decide +kernel⟩, by decide⟩
    · exact ⟨⟨"40K".toList, by decide +kernel⟩, by decide⟩

/-- Hypotheses on the direction: `{"x": 1.0}` keeps the other components. -/
example : Component (.obj [(['x'], .float 1)]) ['x'] 0 1 ∧
    Component (.obj [(['x'], .float 1)]) ['z'] 1 1 ∧ (⟨1, 0, 1⟩ : V3).Nonzero :=
  ⟨Or.inl ⟨_, ⟨_, rfl, rfl⟩, Or.inl rfl⟩, Or.inr ⟨rfl, rfl⟩, by simp [V3.Nonzero]⟩

end Marley.Props
