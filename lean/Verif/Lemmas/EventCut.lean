import Verif.Lemmas.Event
import Mathlib.Tactic.SplitIfs

/-! Helper lemmas about texts of events that are cut off. -/

set_option autoImplicit false

namespace Marley
open Json (Str isDigit natText intText isSpace digitsVal)

/-- What is assumed of the standard library about numbers that are cut off: from the beginning
of the text of a double nothing remains in the stream, whether a number can be made of it or
not. -/
def DblFmt.LawfulCut {K : Type} (f : DblFmt K) : Prop :=
  ∀ x u, u <+: f.print x → f.read u = none ∨ ∃ y, f.read u = some (y, [])

/-- The particle with a charge that has lost its last `k` digits. -/
def Particle.short {K : Type} (p : Particle K) (k : Nat) : Particle K :=
  { p with charge := p.charge.tdiv (10 ^ k) }

variable {K : Type} {f : DblFmt K}

theorem prefix_cases {α : Type} {t a b : List α} (h : t <+: a ++ b) :
    t <+: a ∨ ∃ t', t = a ++ t' ∧ t' <+: b := by
  obtain ⟨u, hu⟩ := h
  rcases List.append_eq_append_iff.1 hu with ⟨w, h1, h2⟩ | ⟨w, h1, h2⟩
  · exact Or.inl ⟨w, h1.symm⟩
  · exact Or.inr ⟨w, h1, u, h2.symm⟩

theorem field_cases {α : Type} {t a b : List α} {c : α} (h : t <+: a ++ c :: b) :
    t <+: a ∨ ∃ t', t = a ++ c :: t' ∧ t' <+: b := by
  rcases prefix_cases h with h | ⟨t', rfl, h'⟩
  · exact Or.inl h
  · cases t' with
    | nil => exact Or.inl (by simp)
    | cons d t' =>
      obtain ⟨u, hu⟩ := h'
      obtain ⟨rfl, hv⟩ := List.cons.inj hu
      exact Or.inr ⟨t', rfl, u, hv⟩

/-! ### Integers -/

theorem natText_prefix (n : Nat) : ∀ u, u <+: natText n → u ≠ [] →
    u = natText (n / 10 ^ ((natText n).length - u.length)) := by
  induction n using Nat.strongRecOn with
  | ind n ih =>
    intro u hu hne
    by_cases h : n < 10
    · have e : natText n = [Char.ofNat (48 + n)] := by rw [natText, if_pos h]
      rw [e] at hu
      cases u with
      | nil => exact absurd rfl hne
      | cons c u =>
        obtain ⟨w, hw⟩ := hu
        simp only [List.cons_append, List.cons.injEq, List.append_eq_nil_iff] at hw
        obtain ⟨rfl, rfl, rfl⟩ := hw
        simp [e]
    · have e : natText n = natText (n / 10) ++ [Char.ofNat (48 + n % 10)] := by
        rw [natText, if_neg h]
      have hu' := hu
      rw [e] at hu'
      rcases field_cases hu' with h1 | ⟨t', rfl, h1⟩
      · have h2 := ih (n / 10) (by omega) u h1 hne
        have hl : u.length ≤ (natText (n / 10)).length := h1.length_le
        rw [Nat.div_div_eq_div_mul] at h2
        have : (natText n).length - u.length = (natText (n / 10)).length - u.length + 1 := by
          rw [e, List.length_append, List.length_singleton]; omega
        rw [this, Nat.pow_succ, Nat.mul_comm]
        exact h2
      · obtain rfl : t' = [] := List.prefix_nil.1 h1
        rw [← e]; simp

theorem dropWhile_all {α : Type} {p : α → Bool} : ∀ {l : List α}, (∀ a ∈ l, p a = true) →
    l.dropWhile p = []
  | [], _ => rfl
  | a :: l, h => by
    rw [List.dropWhile_cons_of_pos (h a (by simp))]
    exact dropWhile_all (fun b hb => h b (by simp [hb]))

/-- An integer at the end of the text. -/
theorem readInt_end {n : Int} (h : intMin ≤ n ∧ n ≤ intMax) : readInt (intText n) = some (n, []) := by
  have hspace := readInt_intText h (c := ' ') spd []
  cases n with
  | ofNat n =>
    obtain ⟨d, u, e, hd⟩ := Json.natText_head_ne n
    have hsk : skipBlank (natText n) = natText n := by
      rw [e]; exact skipBlank_cons (isDigit_not_space hd) _
    have hsp : splitSign2 (natText n) = (false, natText n) := by
      rw [e]; simp [splitSign2, Json.isDigit_ne_dash hd, digit_ne_plus hd]
    have h1 : (natText n).dropWhile isDigit = [] := dropWhile_all (Json.natText_digits n)
    simp only [readInt, intText, hsk, hsp, Json.takeWhile_all (Json.natText_digits n), h1,
      Json.natText_ne_nil, Json.digitsVal_natText, if_false]
    exact if_pos h
  | negSucc n =>
    have hsk : skipBlank ('-' :: natText (n+1)) = '-' :: natText (n+1) :=
      skipBlank_cons (by decide) _
    have hsp : splitSign2 ('-' :: natText (n+1)) = (true, natText (n+1)) := by
      simp [splitSign2]
    have h1 : (natText (n+1)).dropWhile isDigit = [] :=
      dropWhile_all (Json.natText_digits (n+1))
    simp only [readInt, intText, hsk, hsp, Json.takeWhile_all (Json.natText_digits (n+1)), h1,
      Json.natText_ne_nil, Json.digitsVal_natText, if_false, if_true]
    have : -((n + 1 : Nat) : Int) = Int.negSucc n := rfl
    rw [this]
    exact if_pos h

theorem readInt_nil : readInt [] = none := by simp [readInt, splitSign2]

theorem readInt_dash : readInt ['-'] = none := by
  have : skipBlank ['-'] = ['-'] := skipBlank_cons (by decide) _
  simp [readInt, this, splitSign2]

theorem tdiv_fits {n : Int} (h : intMin ≤ n ∧ n ≤ intMax) (k : Nat) :
    intMin ≤ n.tdiv (10 ^ k) ∧ n.tdiv (10 ^ k) ≤ intMax := by
  have h10 : (10 : Int) ^ k = ((10 ^ k : Nat) : Int) := by simp
  cases n with
  | ofNat n =>
    have : (Int.ofNat n).tdiv (10 ^ k) = ((n / 10 ^ k : Nat) : Int) := by
      rw [h10]; rfl
    rw [this]
    have := Nat.div_le_self n (10 ^ k)
    generalize n / 10 ^ k = q at *
    have h1 := h.1; have h2 := h.2
    simp only [Int.ofNat_eq_natCast] at h1 h2
    unfold intMin intMax at *
    constructor <;> omega
  | negSucc n =>
    have : (Int.negSucc n).tdiv (10 ^ k) = -(((n + 1) / 10 ^ k : Nat) : Int) := by
      rw [h10]
      rfl
    rw [this]
    have := Nat.div_le_self (n + 1) (10 ^ k)
    generalize (n + 1) / 10 ^ k = q at *
    have h1 := h.1; have h2 := h.2
    unfold intMin intMax at *
    constructor <;> omega

/-- The beginning of the text of an integer: nothing is read when no digit remains; else the
number without the digits that are missing. -/
theorem readInt_cut {n : Int} (h : intMin ≤ n ∧ n ≤ intMax) {u : Str} (hu : u <+: intText n) :
    readInt u = none ∨ ((intText n).length - u.length < (natText n.natAbs).length ∧
      readInt u = some (n.tdiv (10 ^ ((intText n).length - u.length)), [])) := by
  have h10 : ∀ k : Nat, (10 : Int) ^ k = ((10 ^ k : Nat) : Int) := by intro k; simp
  cases n with
  | ofNat n =>
    by_cases hne : u = []
    · subst hne; exact Or.inl readInt_nil
    · right
      have e := natText_prefix n u hu hne
      have e2 : u = intText ((Int.ofNat n).tdiv (10 ^ ((intText (Int.ofNat n)).length - u.length))) := by
        rw [h10]
        exact e
      have := readInt_end (tdiv_fits h ((intText (Int.ofNat n)).length - u.length))
      rw [← e2] at this
      have hpos := List.length_pos_iff.2 hne
      have hle : u.length ≤ (natText n).length := List.IsPrefix.length_le hu
      refine ⟨?_, this⟩
      change (natText n).length - u.length < (natText n).length
      omega
  | negSucc n =>
    cases u with
    | nil => exact Or.inl readInt_nil
    | cons c u =>
      obtain ⟨w, hw⟩ := hu
      simp only [intText, List.cons_append, List.cons.injEq] at hw
      obtain ⟨rfl, hw⟩ := hw
      by_cases hne : u = []
      · subst hne; exact Or.inl readInt_dash
      · right
        have e := natText_prefix (n + 1) u ⟨w, hw⟩ hne
        have hl : (intText (Int.negSucc n)).length - ('-' :: u).length =
            (natText (n + 1)).length - u.length := by simp [intText]
        rw [hl]
        generalize hk : (natText (n + 1)).length - u.length = k at e
        have e2 : '-' :: u = intText ((Int.negSucc n).tdiv (10 ^ k)) := by
          have e3 : (Int.negSucc n).tdiv (10 ^ k) = -(((n + 1) / 10 ^ k : Nat) : Int) := by
            rw [h10]; rfl
          rw [e3]
          have hpos : (n + 1) / 10 ^ k ≠ 0 := by
            intro h0
            rw [h0] at e
            have h1 : u.length = 1 := by rw [e, natText]; simp
            have h2 : (n + 1) < 10 ^ k := by
              rcases Nat.div_eq_zero_iff.1 h0 with h | h
              · exact absurd h (by positivity)
              · exact h
            have h3 := natText_prefix (n + 1) u ⟨w, hw⟩ hne
            rw [hk, h0] at h3
            -- the first digit of a positive number is not zero
            have h4 : ∀ m : Nat, m ≠ 0 → ∀ c t, natText m = c :: t → c ≠ '0' := by
              intro m
              induction m using Nat.strongRecOn with
              | ind m ih =>
                intro hm c t hc
                by_cases h : m < 10
                · rw [natText, if_pos h] at hc
                  simp only [List.cons.injEq] at hc
                  rw [← hc.1]
                  interval_cases m <;> first | exact absurd rfl hm | decide
                · rw [natText, if_neg h] at hc
                  obtain ⟨d, s, hd, -⟩ := Json.natText_head_ne (m / 10)
                  rw [hd] at hc
                  simp only [List.cons_append, List.cons.injEq] at hc
                  rw [← hc.1]
                  exact ih (m / 10) (by omega) (by omega) d s hd
            have h5 : natText 0 = ['0'] := by rw [natText]; rfl
            rw [h3, h5] at hw
            exact h4 (n + 1) (by omega) '0' w hw.symm rfl
          generalize (n + 1) / 10 ^ k = q at e hpos
          cases q with
          | zero => exact absurd rfl hpos
          | succ q =>
            have : -((q + 1 : Nat) : Int) = Int.negSucc q := rfl
            rw [this, intText, ← e]
        have := readInt_end (tdiv_fits h k)
        rw [← e2] at this
        have hpos := List.length_pos_iff.2 hne
        have hle : u.length ≤ (natText (n + 1)).length := List.IsPrefix.length_le ⟨w, hw⟩
        refine ⟨?_, this⟩
        change k < (natText (n + 1)).length
        omega

theorem get_nil (hf : f.Lawful) : f.get [] = none := hf.read_nil

theorem get_cut (hf : f.Lawful) (hc : f.LawfulCut) {x : K} {u : Str} (hu : u <+: f.print x) :
    f.get u = none ∨ ∃ y, f.get u = some (y, []) := by
  rw [DblFmt.get]
  have : skipBlank u = u := by
    cases u with
    | nil => rfl
    | cons c u =>
      obtain ⟨d, v, e, hd⟩ := hf.head x
      rw [e] at hu
      obtain ⟨w, hw⟩ := hu
      simp only [List.cons_append, List.cons.injEq] at hw
      rw [hw.1]
      exact skipBlank_cons (numStart_not_space hd) _
  rw [this]
  exact hc x u hu

theorem readInt_cut' {n : Int} (h : intMin ≤ n ∧ n ≤ intMax) {u : Str} (hu : u <+: intText n) :
    readInt u = none ∨ ∃ q, readInt u = some (q, []) := by
  rcases readInt_cut h hu with h | ⟨-, h⟩
  · exact Or.inl h
  · exact Or.inr ⟨_, h⟩

/-! ### Particles -/

theorem Particle.read_nil : Particle.read f [] = none := by
  simp [Particle.read, readInt_nil]

/-- The beginning of the text of a particle: it cannot be read, or only digits of the charge
are missing. -/
theorem Particle.read_cutOff (hf : f.Lawful) (hc : f.LawfulCut) {p : Particle K} (hp : p.Fits)
    {t : Str} (ht : t <+: p.print f) :
    Particle.read f t = none ∨
      ((p.print f).length - t.length < (natText p.charge.natAbs).length ∧
       Particle.read f t =
        some (p.short ((p.print f).length - t.length), [])) := by
  have hlen : ∀ (a : Str) (b c : Str), (a ++ b).length - (a ++ c).length = b.length - c.length := by
    intro a b c; simp only [List.length_append]; omega
  unfold Particle.print at ht ⊢
  rcases field_cases ht with h | ⟨t1, rfl, h1⟩
  · left
    rcases readInt_cut' hp.1 h with h | ⟨q, h⟩ <;> simp [Particle.read, h, get_nil hf]
  rcases field_cases h1 with h | ⟨t2, rfl, h2⟩
  · left
    rcases get_cut hf hc h with h | ⟨q, h⟩ <;>
      simp [Particle.read, readInt_intText hp.1 spd, get_space f sp, h, get_nil hf]
  rcases field_cases h2 with h | ⟨t3, rfl, h3⟩
  · left
    rcases get_cut hf hc h with h | ⟨q, h⟩ <;>
      simp [Particle.read, readInt_intText hp.1 spd, get_print hf _ sp, get_space f sp, h, get_nil hf]
  rcases field_cases h3 with h | ⟨t4, rfl, h4⟩
  · left
    rcases get_cut hf hc h with h | ⟨q, h⟩ <;>
      simp [Particle.read, readInt_intText hp.1 spd, get_print hf _ sp, get_space f sp, h, get_nil hf]
  rcases field_cases h4 with h | ⟨t5, rfl, h5⟩
  · left
    rcases get_cut hf hc h with h | ⟨q, h⟩ <;>
      simp [Particle.read, readInt_intText hp.1 spd, get_print hf _ sp, get_space f sp, h, get_nil hf]
  rcases field_cases h5 with h | ⟨t6, rfl, h6⟩
  · left
    rcases get_cut hf hc h with h | ⟨q, h⟩ <;>
      simp [Particle.read, readInt_intText hp.1 spd, get_print hf _ sp, get_space f sp, h, get_nil hf,
        readInt_nil]
  have hm : ∀ (c : Char) (b d : Str), (c :: b).length - (c :: d).length = b.length - d.length := by
    intro c b d; simp
  simp only [hlen, hm]
  have hle := h6.length_le
  by_cases h0 : t6 = []
  · left
    subst h0
    simp [Particle.read, readInt_intText hp.1 spd, get_print hf _ sp, get_space f sp, readInt_nil,
      readInt_space sp]
  have hpos : 0 < t6.length := List.length_pos_iff.2 h0
  rcases readInt_cut hp.2 h6 with h | ⟨hd, h⟩
  · left
    simp [Particle.read, readInt_intText hp.1 spd, get_print hf _ sp, get_space f sp, h,
      readInt_space sp]
  · right
    refine ⟨hd, ?_⟩
    simp [Particle.read, Particle.short, readInt_intText hp.1 spd, get_print hf _ sp, get_space f sp, h,
      readInt_space sp]

/-- The beginning of the lines of a list of particles. -/
theorem Event.readParticles_cutOff (hf : f.Lawful) (hc : f.LawfulCut) (l : List (Particle K))
    (hl : ∀ p ∈ l, p.Fits) {t : Str} (ht : t <+: Event.printParticles f l)
    (hlt : t.length < (Event.printParticles f l).length) :
    Event.readParticles f l.length t = .error .marleyError ∨
      ∃ l0 p, l = l0 ++ [p] ∧
        (Event.printParticles f l).length - t.length ≤ (natText p.charge.natAbs).length ∧
        Event.readParticles f l.length t = .ok (l0 ++ [p.short ((Event.printParticles f l).length - t.length - 1)], []) := by
  induction l generalizing t with
  | nil => simp [Event.printParticles] at hlt
  | cons p l ih =>
    have e : Event.printParticles f (p :: l) = p.print f ++ '\n' :: Event.printParticles f l := by
      simp [Event.printParticles]
    rw [e] at ht hlt ⊢
    have hp := hl p (by simp)
    rcases field_cases ht with h | ⟨u, rfl, h⟩
    · have hle := h.length_le
      rcases Particle.read_cutOff hf hc hp h with h1 | ⟨h1, h2⟩
      · left; simp [Event.readParticles, h1]
      · cases l with
        | nil =>
          right
          refine ⟨[], p, rfl, ?_, ?_⟩
          · simp [Event.printParticles]; omega
          · have : (p.print f ++ '\n' :: Event.printParticles f []).length - t.length - 1 =
                (p.print f).length - t.length := by
              simp [Event.printParticles]; omega
            rw [this]
            simp [Event.readParticles, h2]
        | cons p2 l =>
          left
          simp [Event.readParticles, h2, Particle.read_nil]
    · have hle := h.length_le
      have hlen : (p.print f ++ '\n' :: Event.printParticles f l).length -
          (p.print f ++ '\n' :: u).length = (Event.printParticles f l).length - u.length := by
        simp only [List.length_append, List.length_cons]; omega
      rw [hlen]
      have hlt' : u.length < (Event.printParticles f l).length := by
        simp only [List.length_append, List.length_cons] at hlt; omega
      have hl0 : l ≠ [] := by rintro rfl; simp [Event.printParticles] at hlt'
      have hsp := Event.readParticles_space (f := f) nl l.length (by simpa using hl0) u
      rcases ih (fun q hq => hl q (by simp [hq])) h hlt' with h1 | ⟨l0, q, h1, h2, h3⟩
      · left
        simp [Event.readParticles, Particle.read_print hf hp, hsp, h1]
      · right
        refine ⟨p :: l0, q, by rw [h1]; rfl, h2, ?_⟩
        simp [Event.readParticles, Particle.read_print hf hp, hsp, h3]

/-! ### Events -/

theorem parity_read_nil : Parity.read [] = .ok (none, []) := by
  simp [Parity.read]

theorem parity_read_blank : Parity.read [' '] = .ok (none, []) := by
  have : List.dropWhile Parity.isSpace [' '] = [] := by simp [Parity.isSpace]
  simp [Parity.read, this]

/-- The beginning of the header line: no event. -/
theorem Event.read_headerCut [Zero K] (hf : f.Lawful) (hc : f.LawfulCut) (ni nf : Nat)
    (hni : 2 ≤ ni ∧ (ni : Int) ≤ intMax)
    (hnf : 2 ≤ nf ∧ (nf : Int) ≤ intMax) (Ex : K) (twoJ : Int) (hJ : intMin ≤ twoJ ∧ twoJ ≤ intMax)
    (π : Parity) {t : Str} (ht : t <+: Event.printHeader f ni nf Ex twoJ π) :
    (∃ e, Event.read f t = .ok (e, none) ∧ e.initial = [] ∧ e.final = []) ∨
      Event.read f t = .error .marleyError := by
  have i1 : intMin ≤ (ni : Int) ∧ (ni : Int) ≤ intMax := ⟨by unfold intMin; omega, hni.2⟩
  have i2 : intMin ≤ (nf : Int) ∧ (nf : Int) ≤ intMax := ⟨by unfold intMin; omega, hnf.2⟩
  unfold Event.printHeader at ht
  rcases field_cases ht with h | ⟨t1, rfl, h1⟩
  · left
    have h' : t <+: intText (ni : Int) := h
    rcases readInt_cut' i1 h' with h | ⟨q, h⟩ <;>
      simp [Event.read, h, readInt_nil, Event.cleared]
  rcases field_cases h1 with h | ⟨t2, rfl, h2⟩
  · left
    have h' : t1 <+: intText (nf : Int) := h
    rcases readInt_cut' i2 h' with h | ⟨q, h⟩ <;>
      simp [Event.read, readInt_natText hni.2 spd, readInt_space sp, h, get_nil hf, Event.cleared]
  rcases field_cases h2 with h | ⟨t3, rfl, h3⟩
  · left
    rcases get_cut hf hc h with h | ⟨q, h⟩ <;>
      simp [Event.read, readInt_natText hni.2 spd, readInt_natText hnf.2 spd, readInt_space sp, h,
        get_space f sp, readInt_nil, Event.cleared]
  rcases field_cases h3 with h | ⟨t4, rfl, h4⟩
  · left
    rcases readInt_cut' hJ h with h | ⟨q, h⟩ <;>
      simp [Event.read, readInt_natText hni.2 spd, readInt_natText hnf.2 spd, readInt_space sp, h,
        get_space f sp, get_print hf _ sp, parity_read_nil]
  clear h3 h2 h1 ht
  generalize t4 = t at *
  cases t with
  | nil =>
    left
    simp [Event.read, readInt_natText hni.2 spd, readInt_natText hnf.2 spd, readInt_space sp,
        get_space f sp, get_print hf _ sp, readInt_intText hJ spd, parity_read_blank]
  | cons c t =>
    right
    obtain ⟨w, hw⟩ := h4
    obtain ⟨rfl, hv⟩ := List.cons.inj hw
    clear hw
    have ht : t = [] ∨ t = ['\n'] := by
      cases t with
      | nil => exact Or.inl rfl
      | cons d t =>
        obtain ⟨rfl, hx⟩ := List.cons.inj hv
        rw [(List.append_eq_nil_iff.1 hx).1]
        exact Or.inr rfl
    have hr : Event.readParticles f ni t = .error .marleyError := by
      obtain ⟨n, rfl⟩ : ∃ n, ni = n + 1 := ⟨ni - 1, by omega⟩
      rcases ht with rfl | rfl
      · simp [Event.readParticles, Particle.read_nil]
      · simp [Event.readParticles, Particle.read_space nl, Particle.read_nil]
    have g1 : ¬ (ni : Int) < 2 := by omega
    have g2 : ¬ (nf : Int) < 2 := by omega
    simp [Event.read, readInt_natText hni.2 spd, readInt_natText hnf.2 spd, readInt_space sp,
        get_space f sp, get_print hf _ sp, readInt_intText hJ spd, parity_read_toChar,
        Event.readBody, g1, g2, hr]

/-- The beginning of the text of an event: no event is read, or only digits of the charge of the
last particle (and the newline) are missing. -/
theorem Event.read_cutOff [Zero K] (hf : f.Lawful) (hc : f.LawfulCut) (e : Event K) (h : e.Fits)
    (hi : 2 ≤ e.initial.length) (hfi : 2 ≤ e.final.length) {t : Str} (ht : t <+: e.print f)
    (hlt : t.length < (e.print f).length) :
    (∃ e', Event.read f t = .ok (e', none) ∧ e'.initial = [] ∧ e'.final = []) ∨
    Event.read f t = .error .marleyError ∨
    ∃ l p, e.final = l ++ [p] ∧ (e.print f).length - t.length ≤ (natText p.charge.natAbs).length ∧
      Event.read f t = .ok ({ e with final := l ++ [p.short ((e.print f).length - t.length - 1)] }, some []) := by
  obtain ⟨h1, h2, h3, h4, h5⟩ := h
  have n1 : e.initial ≠ [] := by rintro h; rw [h] at hi; simp at hi
  have n2 : e.final ≠ [] := by rintro h; rw [h] at hfi; simp at hfi
  unfold Event.print at ht hlt ⊢
  rcases prefix_cases ht with h | ⟨t, rfl, h⟩
  · rcases Event.read_headerCut hf hc _ _ ⟨hi, h4⟩ ⟨hfi, h5⟩ _ _ h3 _ h with h | h
    · exact Or.inl h
    · exact Or.inr (Or.inl h)
  have g1 : ¬ (e.initial.length : Int) < 2 := by omega
  have g2 : ¬ (e.final.length : Int) < 2 := by omega
  right
  rw [Event.read_header hf _ _ h4 h5 _ _ h3, Event.readBody, if_neg g1, if_neg g2]
  simp only [Int.toNat_natCast]
  rw [readParticles_space nl _ (by omega)]
  have hcut : ∀ t, t <+: Event.printParticles f e.initial →
      t.length < (Event.printParticles f e.initial).length →
      Event.readParticles f e.initial.length t = .error .marleyError ∨
      ∃ li, Event.readParticles f e.initial.length t = .ok (li, []) := by
    intro t ht hlt
    rcases Event.readParticles_cutOff hf hc _ h1 ht hlt with h | ⟨_, _, _, _, h⟩
    · exact Or.inl h
    · exact Or.inr ⟨_, h⟩
  have hnil : ∀ n, n ≠ 0 → Event.readParticles f n [] = .error .marleyError := by
    intro n hn
    cases n with
    | zero => exact absurd rfl hn
    | succ n => simp [Event.readParticles, Particle.read_nil]
  have hstop : ∀ t, t <+: Event.printParticles f e.initial →
      t.length < (Event.printParticles f e.initial).length →
      (match Event.readParticles f e.initial.length t with
        | .error x => .error x
        | .ok (li, s) =>
          match Event.readParticles f e.final.length s with
          | .error x => .error x
          | .ok (lf, s) => .ok (⟨li, lf, e.Ex, e.twoJ, e.parity⟩, some s) :
        Res (Event K × Option Str)) = .error .marleyError := by
    intro t ht hlt
    rcases hcut t ht hlt with h | ⟨li, h⟩
    · rw [h]
    · rw [h]
      dsimp only
      rw [hnil _ (by omega)]
  rcases prefix_cases h with h | ⟨t, rfl, h'⟩
  · by_cases hlt' : t.length < (Event.printParticles f e.initial).length
    · exact Or.inl (hstop t h hlt')
    · left
      have : t = Event.printParticles f e.initial := h.eq_of_length_le (by omega)
      rw [this]
      have := Event.readParticles_print hf _ h1 n1 []
      rw [List.append_nil] at this
      rw [this]
      dsimp only
      rw [readParticles_space nl _ (by omega), hnil _ (by omega)]
  · rw [Event.readParticles_print hf _ h1 n1]
    dsimp only
    rw [readParticles_space nl _ (by omega)]
    have hlt' : t.length < (Event.printParticles f e.final).length := by
      simp only [List.length_append] at hlt; omega
    have hlen : ∀ (a b c d : Str), (a ++ (b ++ c)).length - (a ++ (b ++ d)).length =
        c.length - d.length := by
      intro a b c d; simp only [List.length_append]; omega
    rw [hlen]
    rcases Event.readParticles_cutOff hf hc _ h2 h' hlt' with h | ⟨l, p, e1, e2, e3⟩
    · left; rw [h]
    · right
      refine ⟨l, p, e1, e2, ?_⟩
      rw [e3]

/-! ### Without the last newline -/

theorem Particle.read_end (hf : f.Lawful) {p : Particle K} (hp : p.Fits) :
    Particle.read f (p.print f) = some (p, []) := by
  simp only [Particle.read, Particle.print, List.append_assoc, List.cons_append]
  simp [readInt_intText hp.1 spd, readInt_end hp.2, get_print hf _ sp, get_space f sp,
    readInt_space sp]

theorem printParticles_ne_nil (l : List (Particle K)) (hne : l ≠ []) :
    Event.printParticles f l ≠ [] := by
  cases l with
  | nil => exact absurd rfl hne
  | cons p l => simp [Event.printParticles]

theorem Event.readParticles_end (hf : f.Lawful) (l : List (Particle K))
    (hl : ∀ p ∈ l, p.Fits) (hne : l ≠ []) :
    Event.readParticles f l.length (Event.printParticles f l).dropLast = .ok (l, []) := by
  induction l with
  | nil => exact absurd rfl hne
  | cons p l ih =>
    have hp := hl p (by simp)
    by_cases hl0 : l = []
    · subst hl0
      have : (Event.printParticles f [p]).dropLast = p.print f := by
        simp [Event.printParticles]
      rw [this]
      simp [Event.readParticles, Particle.read_end hf hp]
    · have e : (Event.printParticles f (p :: l)).dropLast =
          p.print f ++ '\n' :: (Event.printParticles f l).dropLast := by
        have : Event.printParticles f (p :: l) =
            (p.print f ++ ['\n']) ++ Event.printParticles f l := by simp [Event.printParticles]
        rw [this, List.dropLast_append_of_ne_nil (printParticles_ne_nil l hl0)]
        simp
      rw [e]
      simp only [List.length_cons, Event.readParticles, Particle.read_print hf hp]
      rw [readParticles_space nl _ (by simpa using hl0),
        ih (fun q hq => hl q (by simp [hq])) hl0]

/-- A missing newline at the end does not matter. -/
theorem Event.read_end [Zero K] (hf : f.Lawful) (e : Event K) (h : e.Fits)
    (hi : 2 ≤ e.initial.length) (hfi : 2 ≤ e.final.length) :
    Event.read f (e.print f).dropLast = .ok (e, some []) := by
  obtain ⟨h1, h2, h3, h4, h5⟩ := h
  have n1 : e.initial ≠ [] := by rintro h; rw [h] at hi; simp at hi
  have n2 : e.final ≠ [] := by rintro h; rw [h] at hfi; simp at hfi
  have e1 : (e.print f).dropLast = Event.printHeader f e.initial.length e.final.length e.Ex e.twoJ
      e.parity ++ (Event.printParticles f e.initial ++ (Event.printParticles f e.final).dropLast) := by
    rw [Event.print, ← List.append_assoc, List.dropLast_append_of_ne_nil (printParticles_ne_nil _ n2),
      List.append_assoc]
  rw [e1, Event.read_header hf _ _ h4 h5 _ _ h3, Event.readBody,
    if_neg (by omega), if_neg (by omega)]
  simp only [Int.toNat_natCast]
  rw [readParticles_space nl _ (by omega), Event.readParticles_print hf _ h1 n1]
  dsimp only
  rw [readParticles_space nl _ (by omega), Event.readParticles_end hf _ h2 n2]

theorem natText_digit {n : Nat} (h : 10 ≤ n) : ∃ c, natText n = natText (n / 10) ++ [c] := by
  rw [natText, if_neg (by omega)]
  exact ⟨_, rfl⟩

/-- A number of two or more digits without the last one. -/
theorem intText_digit {n : Int} (h : 10 ≤ n.natAbs) :
    ∃ c, intText n = intText (n.tdiv 10) ++ [c] := by
  cases n with
  | ofNat n =>
    obtain ⟨c, hc⟩ := natText_digit (n := n) h
    exact ⟨c, hc⟩
  | negSucc n =>
    have h : 10 ≤ n + 1 := h
    obtain ⟨c, hc⟩ := natText_digit (n := n + 1) h
    refine ⟨c, ?_⟩
    have e : (Int.negSucc n).tdiv 10 = -(((n + 1) / 10 : Nat) : Int) := rfl
    have hpos : (n + 1) / 10 ≠ 0 := by omega
    rw [e, intText, hc]
    generalize (n + 1) / 10 = q at hpos
    cases q with
    | zero => exact absurd rfl hpos
    | succ q =>
      have : -((q + 1 : Nat) : Int) = Int.negSucc q := rfl
      rw [this, intText]
      rfl

/-- Two characters less: the charge of the last particle has lost a digit. -/
theorem Event.print_short (e : Event K) (l : List (Particle K)) (p : Particle K)
    (he : e.final = l ++ [p]) (h : 10 ≤ p.charge.natAbs) :
    (e.print f).dropLast.dropLast = (({ e with final := l ++ [p.short 1] } : Event K).print f).dropLast := by
  obtain ⟨c, hc⟩ := intText_digit h
  have hp : p.print f = (p.short 1).print f ++ [c] := by
    simp only [Particle.print, Particle.short, pow_one, hc, List.append_assoc, List.cons_append]
  have hlen : ({ e with final := l ++ [p.short 1] } : Event K).final.length = e.final.length := by
    rw [he]; simp
  have e1 : e.print f = (Event.printHeader f e.initial.length e.final.length e.Ex e.twoJ e.parity ++
      (Event.printParticles f e.initial ++ (Event.printParticles f l ++ (p.short 1).print f))) ++
      [c] ++ ['\n'] := by
    rw [Event.print, he]
    simp [Event.printParticles, hp]
  have e2 : ({ e with final := l ++ [p.short 1] } : Event K).print f =
      (Event.printHeader f e.initial.length e.final.length e.Ex e.twoJ e.parity ++
      (Event.printParticles f e.initial ++ (Event.printParticles f l ++ (p.short 1).print f))) ++
      ['\n'] := by
    rw [Event.print, hlen]
    simp [Event.printParticles]
  rw [e1, e2, List.dropLast_concat, List.dropLast_concat, List.dropLast_concat]

end Marley
