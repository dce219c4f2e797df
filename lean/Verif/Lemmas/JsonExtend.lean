import Verif.Lemmas.JsonParse

/-! What the JSON parser has read completely does not depend on what follows. -/

set_option autoImplicit false

namespace Marley.Json
open Marley

theorem skipWs_head_space {s : Str} {c : Char} {t : Str} (h : skipWs s = (some c, t)) : isSpace c = false := by
  fun_induction skipWs s with
  | case1 => simp at h
  | case2 d u hd ih => exact ih h
  | case3 u hd ih => exact ih h
  | case4 u hd ih => exact ih h
  | case5 => simp at h; obtain ⟨rfl, rfl⟩ := h; decide
  | case6 d u hd hn => simp at h; obtain ⟨rfl, rfl⟩ := h; simpa using hd

theorem skipWs_extend {s : Str} {c : Char} {t : Str} (h : skipWs s = (some c, t)) (hc : c ≠ '/' ∨ t ≠ []) (m : Str) :
    skipWs (s ++ m) = (some c, t ++ m) := by
  have hsp := skipWs_head_space h
  obtain ⟨pre, hp, rfl⟩ := skipWs_trivia _ _ _ h
  rw [skipWs_of_trivia hp] at h
  rw [List.append_assoc, skipWs_of_trivia hp, List.cons_append]
  by_cases hs : c = '/'
  · subst hs
    cases t with
    | nil => simp at hc
    | cons d u =>
      rw [skipWs.eq_def] at h ⊢
      simp only [hsp, Bool.false_eq_true, if_false, if_true, List.cons_append] at h ⊢
      split at h
      · next t' heq =>
        cases heq
        have h1 := (skipWs_length _).1 _ _ h
        have h2 := skipLine_length u
        simp at h1; omega
      · next t' heq =>
        cases heq
        have h1 := (skipWs_length _).1 _ _ h
        have h2 := skipMulti_length u
        simp at h1; omega
      · next n1 n2 =>
        split
        · next t' heq => cases heq; exact absurd rfl (n1 _)
        · next t' heq => cases heq; exact absurd rfl (n2 _)
        · rfl
  · rw [skipWs.eq_def]
    simp only [hsp, Bool.false_eq_true, if_false, hs]

theorem consumeWs_extend {s : Str} {c : Char} {t : Str} (h : consumeWs s = c :: t) (hc : c ≠ '/' ∨ t ≠ []) (m : Str) :
    consumeWs (s ++ m) = c :: (t ++ m) := by
  rw [consumeWs] at h
  split at h
  · next c' t' heq =>
    cases h
    rw [consumeWs, skipWs_extend heq hc]
  · cases h

theorem parseString_extend {s acc v r : Str} (h : parseString acc s = .ok v r) (hr : r ≠ []) (m : Str) :
    parseString acc (s ++ m) = .ok v (r ++ m) := by
  fun_induction parseString acc s <;> simp_all [parseString]

theorem takeWhile_extend (p : Char → Bool) (s : Str) (h : s.dropWhile p ≠ []) (m : Str) :
    (s ++ m).takeWhile p = s.takeWhile p ∧ (s ++ m).dropWhile p = s.dropWhile p ++ m := by
  induction s with
  | nil => simp at h
  | cons c t ih =>
    cases hc : p c with
    | true =>
      simp only [List.dropWhile_cons, hc, if_true] at h
      simp [List.takeWhile_cons, List.dropWhile_cons, hc, ih h]
    | false => simp [List.takeWhile_cons, List.dropWhile_cons, hc]

theorem finishNumber_extend {F} (ops : FloatOps F) (val e : Str) (x : Int) (rest m : Str) {v r}
    (h : finishNumber ops val e x rest = .ok v r) : finishNumber ops val e x (rest ++ m) = .ok v (r ++ m) := by
  unfold finishNumber at h ⊢
  split_ifs at h ⊢ <;> split at h <;> simp_all

theorem parseNumber_extend {F} (ops : FloatOps F) {s : Str} {v r} (h : parseNumber ops s = .ok v r) (m : Str) :
    parseNumber ops (s ++ m) = .ok v (r ++ m) := by
  unfold parseNumber at h ⊢
  cases hd : s.dropWhile isNumChar with
  | nil => simp [hd] at h
  | cons c t =>
    obtain ⟨h1, h2⟩ := takeWhile_extend isNumChar s (by simp [hd]) m
    rw [h1, h2]
    simp only [hd, List.cons_append] at h ⊢
    split_ifs at h ⊢ with hc1 hc2
    · unfold parseExponent at h ⊢
      have hs : (splitSign t).2.dropWhile isDigit ≠ [] → (splitSign (t ++ m)) = ((splitSign t).1, (splitSign t).2 ++ m) := by
        intro hne
        cases t with
        | nil => simp [splitSign] at hne
        | cons d u => simp only [splitSign, List.cons_append]; split <;> simp
      cases hd2 : (splitSign t).2.dropWhile isDigit with
      | nil => simp [hd2] at h
      | cons c2 t2 =>
        have hs := hs (by simp [hd2])
        obtain ⟨h3, h4⟩ := takeWhile_extend isDigit (splitSign t).2 (by simp [hd2]) m
        rw [hs]
        simp only [h3, h4]
        simp only [hd2, List.cons_append] at h ⊢
        split_ifs at h ⊢
        split at h
        · next e he => exact finishNumber_extend ops _ _ _ _ m h
        · cases h
    · exact finishNumber_extend ops _ _ _ _ m h

theorem take_extend {s : Str} {k : Nat} {w : Str} (hw : w.length = k) (h : s.take k = w) (m : Str) :
    (s ++ m).take k = w ∧ (s ++ m).drop k = s.drop k ++ m := by
  have hl : k ≤ s.length := by
    have := congrArg List.length h
    simp at this; omega
  exact ⟨by rw [List.take_append_of_le_length hl, h], by rw [List.drop_append_of_le_length hl]⟩

theorem parseBool_extend {F} (c : Char) {s : Str} {v : JVal F} {r} (h : parseBool c s = .ok v r) (m : Str) :
    (parseBool c (s ++ m) : PR (JVal F)) = .ok v (r ++ m) := by
  unfold parseBool at h ⊢
  by_cases h1 : c = 't' ∧ s.take 3 = "rue".toList
  · rw [if_pos h1] at h
    obtain ⟨e1, e2⟩ := take_extend (by rfl) h1.2 m
    rw [if_pos ⟨h1.1, e1⟩, e2]
    cases h; rfl
  · rw [if_neg h1] at h
    by_cases h2 : c = 'f' ∧ s.take 4 = "alse".toList
    · rw [if_pos h2] at h
      obtain ⟨e1, e2⟩ := take_extend (by rfl) h2.2 m
      rw [if_neg (fun h => by rw [h2.1] at h; exact absurd h.1 (by decide)), if_pos ⟨h2.1, e1⟩, e2]
      cases h; rfl
    · rw [if_neg h2] at h; cases h

theorem parseNull_extend {F} {s : Str} {v : JVal F} {r} (h : parseNull s = .ok v r) (m : Str) :
    (parseNull (s ++ m) : PR (JVal F)) = .ok v (r ++ m) := by
  unfold parseNull at h ⊢
  by_cases h1 : s.take 3 = "ull".toList
  · rw [if_pos h1] at h
    obtain ⟨e1, e2⟩ := take_extend (by rfl) h1 m
    rw [if_pos e1, e2]
    cases h; rfl
  · rw [if_neg h1] at h; cases h

theorem parseKey_extend {s k r : Str} (h : parseKey s = .ok k r) (hr : r ≠ []) (m : Str) :
    parseKey (s ++ m) = .ok k (r ++ m) := by
  unfold parseKey at h
  split at h
  · next t => simpa [parseKey] using parseString_extend h hr m
  · next hne =>
    simp only [PR.ok.injEq] at h
    obtain ⟨rfl, rfl⟩ := h
    obtain ⟨h1, h2⟩ := takeWhile_extend isKeyChar s hr m
    unfold parseKey
    split
    · next t' heq =>
      cases s with
      | nil => simp at hr
      | cons c u => simp only [List.cons_append, List.cons.injEq] at heq; exact absurd (by rw [heq.1]) (hne u)
    · rw [h1, h2]

/-- A slash is not the beginning of a value. -/
theorem parseNext_slash {F} (ops : FloatOps F) (n : Nat) (t v r) (h : skipWs ('/' :: t) = (some '/', t)) :
    parseNext ops n ('/' :: t) ≠ .ok v r := by
  cases n with
  | zero => simp [parseNext]
  | succ n =>
    rw [parseNext, h]
    simp [isDigit]

theorem parse_extend {F} (ops : FloatOps F) (n : Nat) (m : Str) :
    (∀ s v r, parseNext ops n s = .ok v r → r ≠ [] ∨ skipWs s = (some '{', (skipWs s).2) → parseNext ops n (s ++ m) = .ok v (r ++ m)) ∧
    (∀ acc s v r, parseArray ops n acc s = .ok v r → parseArray ops n acc (s ++ m) = .ok v (r ++ m)) ∧
    (∀ acc s v r, parseObject ops n acc s = .ok v r → parseObject ops n acc (s ++ m) = .ok v (r ++ m)) := by
  induction n with
  | zero => simp [parseNext, parseArray, parseObject]
  | succ n ih =>
    obtain ⟨ih1, ih2, ih3⟩ := ih
    refine ⟨?_, ?_, ?_⟩
    · intro s v r h hr
      rw [parseNext] at h ⊢
      split at h
      · cases h
      · next c t heq =>
        have hc : c ≠ '/' := by
          rintro rfl
          simp [isDigit] at h
        rw [skipWs_extend heq (.inl hc)]
        dsimp only
        split_ifs at h ⊢ with h1 h2 h3 h4 h5 h6
        · exact ih2 _ _ _ _ h
        · exact ih3 _ _ _ _ h
        · have hr' : r ≠ [] := by
            rcases hr with hr | hr
            · exact hr
            · rw [heq] at hr
              exact absurd (Option.some.inj (Prod.mk.inj hr).1) h2
          split at h
          · next w rest hw =>
            cases h
            rw [parseString_extend hw hr']
          · cases h
          · cases h
        · exact parseBool_extend _ h _
        · exact parseNull_extend h _
        · exact parseNumber_extend ops h m
    · intro acc s v r h
      rw [parseArray] at h
      split at h
      · next t heq =>
        cases h
        rw [parseArray, consumeWs_extend heq (.inl (by decide))] <;> rfl
      · next s1 hne =>
        split at h
        · cases h
        · cases h
        · next w s2 hw =>
          have hs1 : ∃ c t, consumeWs s = c :: t ∧ c ≠ '/' := by
            rcases hs : consumeWs s with _ | ⟨c, t⟩
            · rw [hs] at hw
              cases n <;> simp [parseNext, skipWs] at hw
            · refine ⟨c, t, rfl, ?_⟩
              rintro rfl
              refine absurd hw ?_
              rw [hs]
              refine parseNext_slash ops n t w s2 ?_
              rw [consumeWs] at hs
              split at hs
              · next c' t' hk =>
                cases hs
                obtain ⟨pre, hp, rfl⟩ := skipWs_trivia _ _ _ hk
                rwa [skipWs_of_trivia hp] at hk
              · cases hs
          obtain ⟨c, t, hs, hcs⟩ := hs1
          have hx := consumeWs_extend hs (.inl hcs) m
          have hs2 : s2 ≠ [] := by
            rintro rfl
            simp [consumeWs, skipWs] at h
          have hw' := ih1 _ _ _ hw (.inl hs2)
          rw [hs] at hw'
          rw [parseArray, hx]
          split
          · next t' heq => cases heq; exact absurd hs (hne _)
          · rw [← List.cons_append, hw']
            dsimp only
            split at h
            · next t2 heq =>
              rw [consumeWs_extend heq (.inl (by decide))]
              exact ih2 _ _ _ _ h
            · next t2 heq =>
              cases h
              rw [consumeWs_extend heq (.inl (by decide))] <;> rfl
            · cases h
    · intro acc s v r h
      rw [parseObject] at h
      split at h
      · next t heq =>
        cases h
        rw [parseObject, consumeWs_extend heq (.inl (by decide))] <;> rfl
      · next s1 hne =>
        split at h
        · cases h
        · cases h
        · next key s2 hk =>
          split at h
          · next s3 h3 =>
            split at h
            · cases h
            · cases h
            · next w s4 hw =>
              have hs2 : s2 ≠ [] := by rintro rfl; simp [skipWs] at h3
              have hs4 : s4 ≠ [] := by rintro rfl; simp [skipWs] at h
              have hs1 : ∃ c t, consumeWs s = c :: t ∧ (c ≠ '/' ∨ t ≠ []) := by
                rcases hs : consumeWs s with _ | ⟨c, t⟩
                · rw [hs] at hk
                  simp [parseKey] at hk
                  exact absurd hk.2 hs2
                · refine ⟨c, t, rfl, ?_⟩
                  by_contra hcon
                  simp only [not_or, not_not] at hcon
                  obtain ⟨rfl, rfl⟩ := hcon
                  rw [hs] at hk
                  simp [parseKey, isKeyChar, isSpace] at hk
                  exact absurd hk.2 hs2
              obtain ⟨c, t, hs, hcs⟩ := hs1
              have hx := consumeWs_extend hs hcs m
              have hk' := parseKey_extend hk hs2 m
              rw [hs, List.cons_append] at hk'
              have h3x : consumeWs (s3 ++ m) = consumeWs s3 ++ m := by
                rcases hs3 : consumeWs s3 with _ | ⟨c3, t3⟩
                · rw [hs3] at hw
                  cases n <;> simp [parseNext, skipWs] at hw
                · refine consumeWs_extend hs3 (.inl ?_) m
                  rintro rfl
                  refine absurd hw ?_
                  rw [hs3]
                  refine parseNext_slash ops n t3 w s4 ?_
                  rw [consumeWs] at hs3
                  split at hs3
                  · next c' t' hk =>
                    cases hs3
                    obtain ⟨pre, hp, rfl⟩ := skipWs_trivia _ _ _ hk
                    rwa [skipWs_of_trivia hp] at hk
                  · cases hs3
              have hw' := ih1 _ _ _ hw (.inl hs4)
              rw [parseObject, hx]
              split
              · next t' heq => cases heq; exact absurd hs (hne _)
              · rw [hk']
                dsimp only
                rw [skipWs_extend h3 (.inl (by decide))]
                change (match parseNext ops n (consumeWs (s3 ++ m)) with
                  | PR.exc e => PR.exc e
                  | PR.fuel => PR.fuel
                  | PR.ok v s4 =>
                    match skipWs s4 with
                    | (some ',', t) => parseObject ops n (mapSet acc (jsonEscape key) v) t
                    | (some '}', t) => PR.ok (.obj (mapSet acc (jsonEscape key) v)) t
                    | _ => PR.exc .marleyError) = .ok v (r ++ m)
                rw [h3x, hw']
                dsimp only
                split at h
                · next t2 heq =>
                  rw [skipWs_extend heq (.inl (by decide))]
                  exact ih3 _ _ _ _ h
                · next t2 heq =>
                  cases h
                  rw [skipWs_extend heq (.inl (by decide))] <;> rfl
                · cases h
          · cases h

/-- What has been loaded does not depend on what follows. -/
theorem loadStream_extend {F} (ops : FloatOps F) {s : Str} {v : JVal F} {r : Str} (h : loadStream ops s = .ok v r) (m : Str) :
    loadStream ops (s ++ m) = .ok v (r ++ m) := by
  unfold loadStream at h
  split at h
  · next t heq =>
    unfold loadStream
    rw [skipWs_extend heq (.inl (by decide))]
    change parseNext ops (2 * (s ++ m).length + 3) ('{' :: (t ++ m)) = _
    have hb : ∀ u : Str, skipWs ('{' :: u) = (some '{', u) := by
      intro u
      rw [skipWs.eq_def]
      simp [isSpace]
    have h2 := (parse_extend ops _ m).1 _ _ _ h (.inr (by rw [hb]))
    rw [List.cons_append] at h2
    rw [parseNext_mono ops (n := 2 * s.length + 3) (by simp) _ (by rw [h2]; simp), h2]
  · cases h

/-! ### Exceptions -/

theorem parseNumber_extend_exc {F} (ops : FloatOps F) {s : Str} {e} (h : parseNumber ops s = .exc e) (he : e ≠ .marleyError)
    (m : Str) : parseNumber ops (s ++ m) = .exc e := by
  have hf : ∀ val ex x rest, finishNumber ops val ex x rest = .exc e → finishNumber ops val ex x (rest ++ m) = .exc e := by
    intro val ex x rest hx
    unfold finishNumber at hx ⊢
    split_ifs at hx ⊢ <;> split at hx <;> simp_all
  unfold parseNumber at h ⊢
  cases hd : s.dropWhile isNumChar with
  | nil => simp [hd] at h; exact absurd h.symm he
  | cons c t =>
    obtain ⟨h1, h2⟩ := takeWhile_extend isNumChar s (by simp [hd]) m
    rw [h1, h2]
    simp only [hd, List.cons_append] at h ⊢
    split_ifs at h ⊢ with hc1 hc2
    · unfold parseExponent at h ⊢
      cases hd2 : (splitSign t).2.dropWhile isDigit with
      | nil => simp [hd2] at h; exact absurd h.symm he
      | cons c2 t2 =>
        have hs : (splitSign (t ++ m)) = ((splitSign t).1, (splitSign t).2 ++ m) := by
          cases t with
          | nil => simp [splitSign] at hd2
          | cons d u => simp only [splitSign, List.cons_append]; split <;> simp
        obtain ⟨h3, h4⟩ := takeWhile_extend isDigit (splitSign t).2 (by simp [hd2]) m
        rw [hs]
        simp only [h3, h4]
        simp only [hd2, List.cons_append] at h ⊢
        split_ifs at h ⊢
        · split at h
          · next x hx => exact hf _ _ _ _ h
          · exact h
        · exact h
    · exact hf _ _ _ _ h
    · exact h

theorem consumeWs_again {s : Str} {c : Char} {t : Str} (h : consumeWs s = c :: t) : skipWs (c :: t) = (some c, t) := by
  rw [consumeWs] at h
  split at h
  · next c' t' hk =>
    cases h
    obtain ⟨pre, hp, rfl⟩ := skipWs_trivia _ _ _ hk
    rwa [skipWs_of_trivia hp] at hk
  · cases h

theorem parse_extend_exc {F} (ops : FloatOps F) (n : Nat) (m : Str) (e : Exc) (he : e ≠ .marleyError) :
    (∀ s, parseNext ops n s = .exc e → parseNext ops n (s ++ m) = .exc e) ∧
    (∀ acc s, parseArray ops n acc s = .exc e → parseArray ops n acc (s ++ m) = .exc e) ∧
    (∀ acc s, parseObject ops n acc s = .exc e → parseObject ops n acc (s ++ m) = .exc e) := by
  have hns : ∀ k t w, parseNext ops k ('/' :: t) = .exc w → skipWs ('/' :: t) = (some '/', t) → w = .marleyError := by
    intro k t w hw hsk
    cases k with
    | zero => simp [parseNext] at hw
    | succ k => rw [parseNext, hsk] at hw; simp [isDigit] at hw; exact hw.symm
  have hnil : ∀ k w, parseNext ops k [] = .exc w → w = .marleyError := by
    intro k w hw
    cases k <;> simp [parseNext, skipWs] at hw
    exact hw.symm
  -- the value after which the exception comes begins in the text
  have hws : ∀ k s w, parseNext ops k (consumeWs s) = .exc w → w ≠ .marleyError → consumeWs (s ++ m) = consumeWs s ++ m := by
    intro k s w hw hne
    rcases hs : consumeWs s with _ | ⟨c, t⟩
    · rw [hs] at hw; exact absurd (hnil _ _ hw) hne
    · refine consumeWs_extend hs (.inl ?_) m
      rintro rfl
      rw [hs] at hw
      exact hne (hns _ _ _ hw (consumeWs_again hs))
  have hwo : ∀ k s v r, parseNext ops k (consumeWs s) = .ok v r → consumeWs (s ++ m) = consumeWs s ++ m := by
    intro k s v r hw
    rcases hs : consumeWs s with _ | ⟨c, t⟩
    · rw [hs] at hw; cases k <;> simp [parseNext, skipWs] at hw
    · refine consumeWs_extend hs (.inl ?_) m
      rintro rfl
      rw [hs] at hw
      exact parseNext_slash ops k t v r (consumeWs_again hs) hw
  induction n with
  | zero => simp [parseNext, parseArray, parseObject]
  | succ n ih =>
    obtain ⟨ih1, ih2, ih3⟩ := ih
    refine ⟨?_, ?_, ?_⟩
    · intro s h
      rw [parseNext] at h ⊢
      split at h
      · cases h; exact absurd rfl he
      · next c t heq =>
        have hc : c ≠ '/' := by
          rintro rfl
          simp [isDigit] at h
          exact he h.symm
        rw [skipWs_extend heq (.inl hc)]
        dsimp only
        split_ifs at h ⊢ with h1 h2 h3 h4 h5 h6
        · exact ih2 _ _ h
        · exact ih3 _ _ h
        · split at h
          · cases h
          · next w hw => cases h; exact absurd (parseString_exc _ _ _ hw) he
          · cases h
        · unfold parseBool at h; split_ifs at h; cases h; exact absurd rfl he
        · unfold parseNull at h; split_ifs at h; cases h; exact absurd rfl he
        · exact parseNumber_extend_exc ops h he m
        · exact h
    · intro acc s h
      rw [parseArray] at h
      split at h
      · cases h
      · next s1 hne =>
        have hgo : consumeWs (s ++ m) = consumeWs s ++ m → consumeWs s ≠ [] →
            parseArray ops (n + 1) acc (s ++ m) =
            (match parseNext ops n (consumeWs s ++ m) with
              | PR.exc e => PR.exc e
              | PR.fuel => PR.fuel
              | PR.ok v s2 =>
                match consumeWs s2 with
                | ',' :: t => parseArray ops n (acc ++ [v]) t
                | ']' :: t => PR.ok (.arr (acc ++ [v])) t
                | _ => PR.exc .marleyError) := by
          intro h1 h2
          rw [parseArray, h1]
          split
          · next t' heq =>
            rcases hs : consumeWs s with _ | ⟨c, t⟩
            · exact absurd hs h2
            · rw [hs] at heq; cases heq; exact absurd hs (hne _)
          · rfl
        split at h
        · next w hw =>
          cases h
          rw [hgo (hws _ _ _ hw he) (by intro h0; rw [h0] at hw; exact he (hnil _ _ hw)), ih1 _ hw]
        · cases h
        · next w s2 hw =>
          have h0 : consumeWs s ≠ [] := by
            intro h0; rw [h0] at hw; cases n <;> simp [parseNext, skipWs] at hw
          have hs2 : s2 ≠ [] := by
            rintro rfl
            simp [consumeWs, skipWs] at h
            exact he h.symm
          rw [hgo (hwo _ _ _ _ hw) h0, (parse_extend ops n m).1 _ _ _ hw (.inl hs2)]
          dsimp only
          split at h
          · next t2 heq =>
            rw [consumeWs_extend heq (.inl (by decide))]
            exact ih2 _ _ h
          · cases h
          · cases h; exact absurd rfl he
    · intro acc s h
      rw [parseObject] at h
      split at h
      · cases h
      · next s1 hne =>
        split at h
        · next w hw =>
          cases h
          unfold parseKey at hw
          split at hw
          · exact absurd (parseString_exc _ _ _ hw) he
          · cases hw
        · cases h
        · next key s2 hk =>
          split at h
          · next s3 h3 =>
            have hs2 : s2 ≠ [] := by rintro rfl; simp [skipWs] at h3
            have hs1 : ∃ c t, consumeWs s = c :: t ∧ (c ≠ '/' ∨ t ≠ []) := by
              rcases hs : consumeWs s with _ | ⟨c, t⟩
              · rw [hs] at hk
                simp [parseKey] at hk
                exact absurd hk.2 hs2
              · refine ⟨c, t, rfl, ?_⟩
                by_contra hcon
                simp only [not_or, not_not] at hcon
                obtain ⟨rfl, rfl⟩ := hcon
                rw [hs] at hk
                simp [parseKey, isKeyChar, isSpace] at hk
                exact absurd hk.2 hs2
            obtain ⟨c, t, hs, hcs⟩ := hs1
            have hx := consumeWs_extend hs hcs m
            have hk' := parseKey_extend hk hs2 m
            rw [hs, List.cons_append] at hk'
            have hgo : consumeWs (s3 ++ m) = consumeWs s3 ++ m →
                parseObject ops (n + 1) acc (s ++ m) =
                (match parseNext ops n (consumeWs s3 ++ m) with
                  | PR.exc e => PR.exc e
                  | PR.fuel => PR.fuel
                  | PR.ok v s4 =>
                    match skipWs s4 with
                    | (some ',', t) => parseObject ops n (mapSet acc (jsonEscape key) v) t
                    | (some '}', t) => PR.ok (.obj (mapSet acc (jsonEscape key) v)) t
                    | _ => PR.exc .marleyError) := by
              intro h4
              rw [parseObject, hx]
              split
              · next t' heq => cases heq; exact absurd hs (hne _)
              · rw [hk']
                dsimp only
                rw [skipWs_extend h3 (.inl (by decide)), ← h4]
                rfl
            split at h
            · next w hw =>
              cases h
              rw [hgo (hws _ _ _ hw he), ih1 _ hw]
            · cases h
            · next w s4 hw =>
              have hs4 : s4 ≠ [] := by
                rintro rfl
                simp [skipWs] at h
                exact he h.symm
              rw [hgo (hwo _ _ _ _ hw), (parse_extend ops n m).1 _ _ _ hw (.inl hs4)]
              dsimp only
              split at h
              · next t2 heq =>
                rw [skipWs_extend heq (.inl (by decide))]
                exact ih3 _ _ h
              · cases h
              · cases h; exact absurd rfl he
          · cases h; exact absurd rfl he

/-- An exception that only a number can cause does not depend on what follows. -/
theorem loadStream_extend_exc {F} (ops : FloatOps F) {s : Str} {e : Exc} (h : loadStream ops s = .exc e)
    (he : e ≠ .marleyError) (m : Str) : loadStream ops (s ++ m) = .exc e := by
  unfold loadStream at h
  split at h
  · next t heq =>
    unfold loadStream
    rw [skipWs_extend heq (.inl (by decide))]
    change parseNext ops (2 * (s ++ m).length + 3) ('{' :: (t ++ m)) = _
    have h2 := (parse_extend_exc ops _ m e he).1 _ h
    rw [List.cons_append] at h2
    rw [parseNext_mono ops (n := 2 * s.length + 3) (by simp) _ (by rw [h2]; simp), h2]
  · cases h; exact absurd rfl he

end Marley.Json
