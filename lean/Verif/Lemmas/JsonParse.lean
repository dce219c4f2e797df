import Verif.Lemmas.Json
import Verif.Spec.Json

/-! Facts about arbitrary inputs of the JSON parser model. -/

set_option autoImplicit false

namespace Marley.Json
open Marley

theorem skipLine_spec (s : Str) : skipLine s = [] ∨
    ∃ body, '\n' ∉ body ∧ s = body ++ '\n' :: skipLine s := by
  induction s with
  | nil => simp [skipLine]
  | cons c t ih =>
    by_cases hc : c = '\n'
    · subst hc; right; exact ⟨[], by simp, by simp [skipLine]⟩
    · simp only [skipLine, hc, if_false]
      rcases ih with h | ⟨body, h1, h2⟩
      · left; exact h
      · right
        refine ⟨c :: body, ?_, ?_⟩
        · simp only [List.mem_cons, not_or]
          exact ⟨fun h => hc h.symm, h1⟩
        · rw [List.cons_append, ← h2]

theorem skipLine_append (body p : Str) (h : '\n' ∉ body) : skipLine (body ++ '\n' :: p) = p := by
  induction body with
  | nil => simp [skipLine]
  | cons c t ih =>
    simp only [List.mem_cons, not_or] at h
    have hc : ¬ (c = '\n') := fun h' => h.1 h'.symm
    simp only [List.cons_append, skipLine, hc, if_false]
    exact ih h.2

theorem skipMulti_spec (s : Str) : skipMulti s = [] ∨
    ∃ body, ¬ (['*', '/'] <:+: body ++ ['*']) ∧ s = body ++ '*' :: '/' :: skipMulti s := by
  fun_induction skipMulti s with
  | case1 => simp
  | case2 => simp
  | case3 c d t h =>
    obtain ⟨rfl, rfl⟩ := h
    right; refine ⟨[], ?_, by simp⟩
    rintro ⟨a, b, hab⟩
    have := congrArg List.length hab
    simp at this; omega
  | case4 c d t h ih =>
    rcases ih with ih | ⟨body, h1, h2⟩
    · left; exact ih
    · right
      refine ⟨c :: body, ?_, by rw [List.cons_append, ← h2]⟩
      intro hin
      rw [List.cons_append, List.infix_cons_iff] at hin
      rcases hin with hp | hin
      · rw [List.cons_prefix_cons] at hp
        obtain ⟨hc, hp⟩ := hp
        cases body with
        | nil => simp at hp
        | cons b body =>
          simp only [List.cons_append, List.cons.injEq] at h2
          rw [List.cons_append, List.cons_prefix_cons] at hp
          exact h ⟨hc.symm, by rw [h2.1, ← hp.1]⟩
      · exact h1 hin

theorem skipMulti_append (body p : Str) (h : ¬ (['*', '/'] <:+: body ++ ['*'])) :
    skipMulti (body ++ '*' :: '/' :: p) = p := by
  induction body with
  | nil => simp [skipMulti]
  | cons c t ih =>
    rw [List.cons_append, List.infix_cons_iff, not_or] at h
    have ih := ih h.2
    cases t with
    | nil =>
      simp only [List.cons_append, List.nil_append, skipMulti] at ih ⊢
      rw [if_neg (by simp)]
      exact ih
    | cons d t =>
      simp only [List.cons_append, skipMulti] at ih ⊢
      rw [if_neg]
      · exact ih
      · rintro ⟨rfl, rfl⟩
        exact h.1 (by simp)

/-- What `skipWs` skips is a run of blanks and complete comments. -/
theorem skipWs_trivia (s : Str) (c : Char) (t : Str) (h : skipWs s = (some c, t)) :
    ∃ pre, Trivia pre ∧ s = pre ++ c :: t := by
  fun_induction skipWs s with
  | case1 => simp at h
  | case2 d u hd ih =>
    obtain ⟨pre, hp, rfl⟩ := ih h
    refine ⟨d :: pre, .blank d pre ?_ hp, rfl⟩
    rcases isSpace_cases hd with rfl | rfl | rfl | rfl | rfl | rfl <;> simp
  | case3 u hd ih =>
    obtain ⟨pre, hp, e⟩ := ih h
    rcases skipLine_spec u with h0 | ⟨body, hb, hu⟩
    · rw [h0] at h; simp [skipWs] at h
    · refine ⟨'/' :: '/' :: (body ++ '\n' :: pre), .line body pre hb hp, ?_⟩
      rw [hu, e]; simp
  | case4 u hd ih =>
    obtain ⟨pre, hp, e⟩ := ih h
    rcases skipMulti_spec u with h0 | ⟨body, hb, hu⟩
    · rw [h0] at h; simp [skipWs] at h
    · refine ⟨'/' :: '*' :: (body ++ '*' :: '/' :: pre), .block body pre hb hp, ?_⟩
      rw [hu, e]; simp
  | case5 => simp at h; obtain ⟨rfl, rfl⟩ := h; exact ⟨[], .nil, rfl⟩
  | case6 => simp at h; obtain ⟨rfl, rfl⟩ := h; exact ⟨[], .nil, rfl⟩

theorem skipWs_of_trivia {pre : Str} (hp : Trivia pre) (s : Str) :
    skipWs (pre ++ s) = skipWs s := by
  induction hp with
  | nil => rfl
  | blank c p hc _ ih =>
    rw [List.cons_append, skipWs_space, ih]
    simp at hc
    rcases hc with rfl | rfl | rfl | rfl | rfl | rfl <;> decide
  | line body p hb _ ih =>
    rw [← ih, List.cons_append, skipWs.eq_def]
    simp only [List.cons_append, List.append_assoc]
    rw [if_neg (by decide), if_pos trivial, skipLine_append _ _ hb]
  | block body p hb _ ih =>
    rw [← ih, List.cons_append, skipWs.eq_def]
    simp only [List.cons_append, List.append_assoc]
    rw [if_neg (by decide), if_pos trivial, skipMulti_append _ _ hb]

/-! ### Kinds of exception -/

/-- The exceptions that can leave `JSON::load`. -/
def LoadExc (e : Exc) : Prop := e = .marleyError ∨ e = .invalidArgument ∨ e = .outOfRange

theorem stol_exc {s : Str} {e : Exc} (h : stol s = .error e) : LoadExc e := by
  unfold stol at h
  simp only at h
  unfold LoadExc
  split_ifs at h <;> simp_all

theorem parseString_exc (s acc : Str) (e : Exc) (h : parseString acc s = .exc e) :
    e = .marleyError := by
  fun_induction parseString acc s <;> simp_all

theorem parseNumber_exc {F} (ops : FloatOps F)
    (hops : ∀ v e x, ops.stodPow v e = .error x → LoadExc x) (s : Str) (e : Exc)
    (h : parseNumber ops s = .exc e) : LoadExc e := by
  have hfin : ∀ val ex x rest, finishNumber ops val ex x rest = .exc e → LoadExc e := by
    intro val ex x rest hf
    unfold finishNumber at hf
    split_ifs at hf
    all_goals (split at hf <;> simp at hf; subst hf; rename_i h'; first | exact hops _ _ _ h' | exact stol_exc h')
  unfold parseNumber at h
  split at h
  · simp at h; left; exact h.symm
  · simp only at h
    split_ifs at h
    · unfold parseExponent at h
      split at h
      · simp at h; left; exact h.symm
      · split_ifs at h
        · dsimp only at h
          split at h
          · exact hfin _ _ _ _ h
          · next h' => simp at h; subst h; exact stol_exc h'
        · simp at h; left; exact h.symm
    · exact hfin _ _ _ _ h
    · simp at h; left; exact h.symm

theorem parse_exc {F} (ops : FloatOps F)
    (hops : ∀ v e x, ops.stodPow v e = .error x → LoadExc x) (n : Nat) :
    (∀ s e, parseNext ops n s = .exc e → LoadExc e) ∧
    (∀ acc s e, parseArray ops n acc s = .exc e → LoadExc e) ∧
    (∀ acc s e, parseObject ops n acc s = .exc e → LoadExc e) := by
  have me : LoadExc .marleyError := Or.inl rfl
  induction n with
  | zero => simp [parseNext, parseArray, parseObject]
  | succ n ih =>
    obtain ⟨ih1, ih2, ih3⟩ := ih
    refine ⟨?_, ?_, ?_⟩
    · intro s e h
      rw [parseNext] at h
      split at h
      · simp at h; subst h; exact me
      · split_ifs at h
        · exact ih2 _ _ _ h
        · exact ih3 _ _ _ h
        · split at h <;> simp at h
          next h' => subst h; rw [parseString_exc _ _ _ h']; exact me
        · unfold parseBool at h; split_ifs at h; simp at h; subst h; exact me
        · unfold parseNull at h; split_ifs at h; simp at h; subst h; exact me
        · exact parseNumber_exc ops hops _ _ h
        · simp at h; subst h; exact me
    · intro acc s e h
      rw [parseArray] at h
      split at h
      · simp at h
      · split at h
        · next h' => simp at h; subst h; exact ih1 _ _ h'
        · simp at h
        · split at h
          · exact ih2 _ _ _ h
          · simp at h
          · simp at h; subst h; exact me
    · intro acc s e h
      rw [parseObject] at h
      split at h
      · simp at h
      · split at h
        · next h' =>
          simp at h; subst h
          unfold parseKey at h'
          split at h'
          · rw [parseString_exc _ _ _ h']; exact me
          · simp at h'
        · simp at h
        · split at h
          · split at h
            · next h' => simp at h; subst h; exact ih1 _ _ h'
            · simp at h
            · split at h
              · exact ih3 _ _ _ h
              · simp at h
              · simp at h; subst h; exact me
          · simp at h; subst h; exact me

/-! ### Everything loaded can be held -/

theorem keyLt_trans (a b c : Str) (h1 : keyLt a b = true) (h2 : keyLt b c = true) :
    keyLt a c = true := by
  induction a generalizing b c with
  | nil =>
    cases b with
    | nil => simp [keyLt] at h1
    | cons y b => cases c with
      | nil => simp [keyLt] at h2
      | cons z c => rfl
  | cons x a ih =>
    cases b with
    | nil => simp [keyLt] at h1
    | cons y b => cases c with
      | nil => simp [keyLt] at h2
      | cons z c =>
        simp only [keyLt] at h1 h2 ⊢
        by_cases hxz : x.toNat < z.toNat
        · simp [hxz]
        · by_cases hzx : z.toNat < x.toNat
          · split_ifs at h1 h2 <;> omega
          · simp only [hxz, hzx, if_false]
            have : x.toNat = y.toNat ∧ y.toNat = z.toNat := by
              split_ifs at h1 h2 <;> omega
            simp [this.1, this.2] at h1 h2
            exact ih b c h1 h2

theorem keyLt_total (a b : Str) (hne : a ≠ b) (h : keyLt a b = false) : keyLt b a = true := by
  induction a generalizing b with
  | nil => cases b with
    | nil => exact absurd rfl hne
    | cons y b => simp [keyLt] at h
  | cons x a ih => cases b with
    | nil => rfl
    | cons y b =>
      simp only [keyLt] at h ⊢
      by_cases hxy : x.toNat < y.toNat
      · simp [hxy] at h
      · by_cases hyx : y.toNat < x.toNat
        · simp [hyx]
        · simp only [hxy, hyx, if_false] at h ⊢
          have hxy' : x = y := Char.ext (UInt32.toNat_inj.1 (by
            show x.toNat = y.toNat; omega))
          exact ih b (fun e => hne (by rw [hxy', e])) h

theorem mem_mapSet {F} {m : List (Str × JVal F)} {k : Str} {v : JVal F} {p}
    (h : p ∈ mapSet m k v) : p = (k, v) ∨ p ∈ m := by
  induction m with
  | nil => simp [mapSet] at h; exact Or.inl h
  | cons q m ih =>
    obtain ⟨k', v'⟩ := q
    simp only [mapSet] at h
    split_ifs at h
    · simp at h ⊢; tauto
    · simp at h ⊢; tauto
    · rcases List.mem_cons.1 h with h | h
      · right; simp [h]
      · rcases ih h with h | h
        · exact Or.inl h
        · right; simp [h]

theorem mapSet_sorted {F} (m : List (Str × JVal F)) (k : Str) (v : JVal F)
    (h : m.Pairwise (fun p q => keyLt p.1 q.1 = true)) :
    (mapSet m k v).Pairwise (fun p q => keyLt p.1 q.1 = true) := by
  induction m with
  | nil => simp [mapSet]
  | cons q m ih =>
    obtain ⟨k', v'⟩ := q
    rw [List.pairwise_cons] at h
    simp only [mapSet]
    split_ifs with h1 h2
    · subst h1
      exact List.pairwise_cons.2 ⟨h.1, h.2⟩
    · refine List.pairwise_cons.2 ⟨?_, List.pairwise_cons.2 h⟩
      intro p hp
      rcases List.mem_cons.1 hp with rfl | hp
      · exact h2
      · exact keyLt_trans _ _ _ h2 (h.1 p hp)
    · refine List.pairwise_cons.2 ⟨?_, ih h.2⟩
      intro p hp
      rcases mem_mapSet hp with rfl | hp
      · exact keyLt_total k k' h1 (by simpa using h2)
      · exact h.1 p hp

theorem stol_ok_range {s : Str} {n : Int} (h : stol s = .ok n) : longMin ≤ n ∧ n ≤ longMax := by
  unfold stol at h
  simp only at h
  split_ifs at h <;> (simp at h; subst h; assumption)

theorem parseNumber_holdable {F} (ops : FloatOps F) (s : Str) (v : JVal F) (r : Str)
    (h : parseNumber ops s = .ok v r) : Holdable (fun _ => True) v := by
  have hfin : ∀ val ex x rest, finishNumber ops val ex x rest = .ok v r →
      Holdable (fun _ => True) v := by
    intro val ex x rest hf
    unfold finishNumber at hf
    split_ifs at hf <;> split at hf <;> simp at hf
    · rw [← hf.1]; exact .float _ trivial
    · rw [← hf.1]; exact .float _ trivial
    · next h' => rw [← hf.1]; exact .int _ (stol_ok_range h').1 (stol_ok_range h').2
  unfold parseNumber at h
  split at h
  · simp at h
  · simp only at h
    split_ifs at h
    · unfold parseExponent at h
      split at h
      · simp at h
      · split_ifs at h
        dsimp only at h
        split at h
        · exact hfin _ _ _ _ h
        · simp at h
    · exact hfin _ _ _ _ h

theorem parse_holdable {F} (ops : FloatOps F) (n : Nat) :
    (∀ s v r, parseNext ops n s = .ok v r → Holdable (fun _ => True) v) ∧
    (∀ acc s v r, (∀ w ∈ acc, Holdable (fun _ => True) w) →
      parseArray ops n acc s = .ok v r → Holdable (fun _ => True) v) ∧
    (∀ acc s v r, Holdable (fun _ => True) (.obj acc) →
      parseObject ops n acc s = .ok v r → Holdable (fun _ => True) v ∧ ∃ m, v = .obj m) := by
  induction n with
  | zero => simp [parseNext, parseArray, parseObject]
  | succ n ih =>
    obtain ⟨ih1, ih2, ih3⟩ := ih
    refine ⟨?_, ?_, ?_⟩
    · intro s v r h
      rw [parseNext] at h
      split at h
      · simp at h
      · split_ifs at h
        · exact ih2 _ _ _ _ (by simp) h
        · exact (ih3 _ _ _ _ (.obj _ (by simp) (by simp)) h).1
        · split at h <;> simp at h
          rw [← h.1]; exact .str _
        · unfold parseBool at h; split_ifs at h <;> simp at h <;> rw [← h.1] <;> exact .bool _
        · unfold parseNull at h; split_ifs at h; simp at h; rw [← h.1]; exact .null
        · exact parseNumber_holdable ops _ _ _ h
    · intro acc s v r hacc h
      rw [parseArray] at h
      split at h
      · simp at h; rw [← h.1]; exact .arr _ hacc
      · split at h
        · simp at h
        · simp at h
        · next w s2 h' =>
          have hw := ih1 _ _ _ h'
          have hacc' : ∀ x ∈ acc ++ [w], Holdable (fun _ => True) x := by
            intro x hx
            rcases List.mem_append.1 hx with hx | hx
            · exact hacc x hx
            · simp at hx; rw [hx]; exact hw
          split at h
          · exact ih2 _ _ _ _ hacc' h
          · simp at h; rw [← h.1]; exact .arr _ hacc'
          · simp at h
    · intro acc s v r hacc h
      rw [parseObject] at h
      split at h
      · simp at h; rw [← h.1]; exact ⟨hacc, _, rfl⟩
      · split at h
        · simp at h
        · simp at h
        · next key s2 hk =>
          split at h
          · split at h
            · simp at h
            · simp at h
            · next w s4 h' =>
              have hw := ih1 _ _ _ h'
              have hacc' : Holdable (fun _ => True) (.obj (mapSet acc (jsonEscape key) w)) := by
                cases hacc with
                | obj _ hs hv =>
                  refine .obj _ (mapSet_sorted _ _ _ hs) ?_
                  intro p hp
                  rcases mem_mapSet hp with rfl | hp
                  · exact hw
                  · exact hv p hp
              split at h
              · exact ih3 _ _ _ _ hacc' h
              · simp at h; rw [← h.1]; exact ⟨hacc', _, rfl⟩
              · simp at h
          · simp at h

/-! ### Lookup -/

theorem mapFind_eq_lookup {F} (m : List (Str × JVal F)) (k : Str) : mapFind m k = m.lookup k := by
  induction m with
  | nil => rfl
  | cons q m ih =>
    obtain ⟨k', v⟩ := q
    by_cases h : k = k'
    · subst h; simp [mapFind]
    · have : (k == k') = false := by simpa using h
      simp [mapFind, h, ih, List.lookup, this]

/-! ### Conversion of integers to doubles -/

theorem natToDouble_exact (m k : Nat) (hm : m ≤ 2 ^ 53) : natToDouble (m * 2 ^ k) = m * 2 ^ k := by
  -- reduce the boundary mantissa 2^53 to 2^52 * 2
  have main : ∀ m k, m < 2 ^ 53 → natToDouble (m * 2 ^ k) = m * 2 ^ k := by
    intro m k hm
    unfold natToDouble
    split
    · rfl
    · next hge =>
      have hn0 : m * 2 ^ k ≠ 0 := by intro h; simp [h] at hge
      have hlog : 2 ^ (m * 2 ^ k).log2 ≤ m * 2 ^ k := Nat.log2_self_le hn0
      have h53 : 53 ≤ (m * 2 ^ k).log2 := (Nat.le_log2 hn0).2 (by omega)
      simp only
      generalize hL : (m * 2 ^ k).log2 = L at *
      have hk : L - 52 ≤ k := by
        by_contra hlt
        have h1 : k + 53 ≤ L := by omega
        have h2 : 2 ^ (k + 53) ≤ 2 ^ L := Nat.pow_le_pow_right (by norm_num) h1
        have h3 : m * 2 ^ k < 2 ^ 53 * 2 ^ k := Nat.mul_lt_mul_of_pos_right hm (by positivity)
        have h4 : 2 ^ (k + 53) = 2 ^ 53 * 2 ^ k := by rw [pow_add, mul_comm]
        omega
      have hdvd : 2 ^ (L - 52) ∣ m * 2 ^ k := Dvd.dvd.mul_left (pow_dvd_pow 2 hk) m
      obtain ⟨q, hq⟩ := hdvd
      have hpos : 0 < 2 ^ (L - 52) := by positivity
      unfold roundDiv
      rw [hq, Nat.mul_div_cancel_left _ hpos, Nat.mul_mod_right]
      simp [hpos, mul_comm]
  rcases Nat.lt_or_eq_of_le hm with h | h
  · exact main m k h
  · subst h
    have := main (2 ^ 52) (k + 1) (by norm_num)
    rw [show (2:Nat) ^ 53 * 2 ^ k = 2 ^ 52 * 2 ^ (k + 1) by rw [pow_succ 2 k]; norm_num; ring]
    exact this

end Marley.Json
