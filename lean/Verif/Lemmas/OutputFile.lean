import Verif.Model.OutputFile
import Verif.Lemmas.JsonRoundTrip
import Verif.Lemmas.JsonParse
import Verif.Lemmas.Event

/-! Helper lemmas for the output files. -/

set_option autoImplicit false

namespace Marley.Json
open Marley

variable {F : Type}

/-- The text some call of the printer writes for `v`. -/
def Printed (ops : FloatOps F) (v : JVal F) (t : Str) : Prop :=
  ∃ step p ind, t = print ops step p ind v

/-- The text between the brackets of an array, written element by element. -/
inductive Elems (ops : FloatOps F) : List (JVal F) → Str → Prop
  | none (ws : Str) : Blank ws → Elems ops [] ws
  | one (ws : Str) (v : JVal F) (t : Str) : Blank ws → Printed ops v t → Elems ops [v] (ws ++ t)
  | more (l : List (JVal F)) (s ws : Str) (v : JVal F) (t : Str) : l ≠ [] → Elems ops l s →
      Blank ws → Printed ops v t → Elems ops (l ++ [v]) (s ++ ',' :: (ws ++ t))

theorem reloadList_map (l : List (JVal F)) : reloadList l = l.map reload := by
  induction l with
  | nil => rfl
  | cons v l ih => simp [reloadList, ih]

theorem parse_comma (ops : FloatOps F) {v : JVal F} (hv : WF ops v) {t : Str}
    (ht : Printed ops v t) {ws : Str} (hws : Blank ws) (acc : List (JVal F)) (u : Str) :
    ∃ N, ∀ n, N ≤ n → parseArray ops (n + 1) acc (ws ++ (t ++ ',' :: u)) =
      parseArray ops n (acc ++ [reload v]) u := by
  obtain ⟨step, p, ind, rfl⟩ := ht
  obtain ⟨N, hN⟩ := roundtrip ops step p v hv ind [] (',' :: u) blank_nil ⟨_, _, rfl, by decide⟩
  refine ⟨N, fun n hn => ?_⟩
  obtain ⟨c, t, e, h0, h1, h2⟩ := print_head ops step p ind v hv
  have hN' := hN n hn
  rw [List.nil_append] at hN'
  rw [e] at hN' ⊢
  simp only [List.cons_append] at hN' ⊢
  rw [parseArray, consumeWs_blank_char hws h0 h1]
  split
  · next t' heq => cases heq; exact absurd rfl h2
  · rw [hN']
    simp only
    rw [show consumeWs (',' :: u) = ',' :: u from
      consumeWs_blank_char blank_nil (by decide) (by decide) u]
    rfl

theorem parse_close (ops : FloatOps F) {v : JVal F} (hv : WF ops v) {t : Str}
    (ht : Printed ops v t) {ws ws2 : Str} (hws : Blank ws) (hws2 : Blank ws2)
    (acc : List (JVal F)) (u : Str) :
    ∃ N, ∀ n, N ≤ n → parseArray ops n acc (ws ++ (t ++ (ws2 ++ ']' :: u))) =
      .ok (.arr (acc ++ [reload v])) u := by
  obtain ⟨step, p, ind, rfl⟩ := ht
  obtain ⟨N, hN⟩ := roundtrip ops step p v hv ind [] (ws2 ++ ']' :: u) blank_nil
    (delim_blank_close hws2 (by decide) u)
  refine ⟨N + 1, fun n hn => ?_⟩
  obtain ⟨n, rfl⟩ : ∃ m, n = m + 1 := ⟨n - 1, by omega⟩
  obtain ⟨c, t, e, h0, h1, h2⟩ := print_head ops step p ind v hv
  have hN' := hN n (by omega)
  rw [List.nil_append] at hN'
  rw [e] at hN' ⊢
  simp only [List.cons_append] at hN' ⊢
  rw [parseArray, consumeWs_blank_char hws h0 h1]
  split
  · next t' heq => cases heq; exact absurd rfl h2
  · rw [hN']
    simp only
    rw [consumeWs_blank_char hws2 (by decide) (by decide)]
    rfl

theorem elems_comma (ops : FloatOps F) {l : List (JVal F)} {s : Str} (h : Elems ops l s)
    (hne : l ≠ []) (hwf : ∀ v ∈ l, WF ops v) (acc : List (JVal F)) (u : Str) :
    ∃ N k, ∀ n, N ≤ n → parseArray ops (n + k) acc (s ++ ',' :: u) =
      parseArray ops n (acc ++ reloadList l) u := by
  induction h generalizing acc u with
  | none => exact absurd rfl hne
  | one ws v t hws ht =>
    obtain ⟨N, hN⟩ := parse_comma ops (hwf v (by simp)) ht hws acc u
    refine ⟨N, 1, fun n hn => ?_⟩
    simpa [reloadList] using hN n hn
  | more l s ws v t hl _ hws ht ih =>
    obtain ⟨N1, hN1⟩ := parse_comma ops (hwf v (by simp)) ht hws (acc ++ reloadList l) u
    obtain ⟨N2, k, hN2⟩ := ih hl (fun w hw => hwf w (by simp [hw])) acc (ws ++ (t ++ ',' :: u))
    refine ⟨max N1 N2, k + 1, fun n hn => ?_⟩
    have h1 := hN1 n (by omega)
    have h2 := hN2 (n + 1) (by omega)
    rw [h1] at h2
    rw [show n + (k + 1) = n + 1 + k by omega]
    simpa [reloadList_map] using h2

theorem elems_close (ops : FloatOps F) {l : List (JVal F)} {s : Str} (h : Elems ops l s)
    (hwf : ∀ v ∈ l, WF ops v) {ws2 : Str} (hws2 : Blank ws2) (u : Str) :
    ∃ N, ∀ n, N ≤ n → parseArray ops n [] (s ++ (ws2 ++ ']' :: u)) =
      .ok (.arr (reloadList l)) u := by
  cases h with
  | none ws hws =>
    refine ⟨1, fun n hn => ?_⟩
    obtain ⟨n, rfl⟩ : ∃ m, n = m + 1 := ⟨n - 1, by omega⟩
    have := consumeWs_blank_char (blank_append hws hws2) (c := ']') (by decide) (by decide) u
    rw [parseArray, ← List.append_assoc, this]
    simp [reloadList]
  | one ws v t hws ht =>
    obtain ⟨N, hN⟩ := parse_close ops (hwf v (by simp)) ht hws hws2 [] u
    refine ⟨N, fun n hn => ?_⟩
    simpa [reloadList] using hN n hn
  | more l s ws v t hl he hws ht =>
    obtain ⟨N1, hN1⟩ := parse_close ops (hwf v (by simp)) ht hws hws2 (reloadList l) u
    obtain ⟨N2, k, hN2⟩ := elems_comma ops he hl (fun w hw => hwf w (by simp [hw])) []
      (ws ++ (t ++ (ws2 ++ ']' :: u)))
    refine ⟨max N1 N2 + k, fun n hn => ?_⟩
    have h1 := hN1 (n - k) (by omega)
    have h2 := hN2 (n - k) (by omega)
    rw [List.nil_append, h1, show n - k + k = n by omega] at h2
    simpa [reloadList_map] using h2

/-- A member of an object that is followed by another one. -/
theorem member_comma (ops : FloatOps F) (n : Nat) (acc : List (Str × JVal F)) {k : Str}
    (hk : jsonEscape k = k) {w1 w2 w3 : Str} (h1 : Blank w1) (h2 : Blank w2) (h3 : Blank w3)
    {c : Char} (hc : isSpace c = false) (hc' : c ≠ '/') {s t : Str} {v : JVal F} {w4 : Str}
    (h4 : Blank w4) (hv : parseNext ops n (c :: s) = .ok v (w4 ++ ',' :: t)) :
    parseObject ops (n + 1) acc (w1 ++ '"' :: (k ++ '"' :: (w2 ++ ':' :: (w3 ++ c :: s)))) =
      parseObject ops n (mapSet acc k v) t := by
  have := parseObject_quoted ops n acc h1 k (w2 ++ ':' :: (w3 ++ c :: s))
  rw [hk] at this
  rw [this, skipWs_blank_char h2 (by decide) (by decide)]
  simp only
  rw [consumeWs_blank_char h3 hc hc', hv]
  simp only
  rw [skipWs_blank_char h4 (by decide) (by decide)]
  rfl

/-- The last member of an object. -/
theorem member_close (ops : FloatOps F) (n : Nat) (acc : List (Str × JVal F)) {k : Str}
    (hk : jsonEscape k = k) {w1 w2 w3 : Str} (h1 : Blank w1) (h2 : Blank w2) (h3 : Blank w3)
    {c : Char} (hc : isSpace c = false) (hc' : c ≠ '/') {s t : Str} {v : JVal F} {w4 : Str}
    (h4 : Blank w4) (hv : parseNext ops n (c :: s) = .ok v (w4 ++ '}' :: t)) :
    parseObject ops (n + 1) acc (w1 ++ '"' :: (k ++ '"' :: (w2 ++ ':' :: (w3 ++ c :: s)))) =
      .ok (.obj (mapSet acc k v)) t := by
  have := parseObject_quoted ops n acc h1 k (w2 ++ ':' :: (w3 ++ c :: s))
  rw [hk] at this
  rw [this, skipWs_blank_char h2 (by decide) (by decide)]
  simp only
  rw [consumeWs_blank_char h3 hc hc', hv]
  simp only
  rw [skipWs_blank_char h4 (by decide) (by decide)]
  rfl

/-- A text starting with a brace that is parsed with enough fuel is loaded. -/
theorem loadStream_of_parse (ops : FloatOps F) {u : Str} {v : JVal F} {r : Str}
    (h : ∃ N, ∀ n, N ≤ n → parseNext ops n ('{' :: u) = .ok v r) :
    loadStream ops ('{' :: u) = .ok v r := by
  obtain ⟨N, hN⟩ := h
  unfold loadStream
  rw [skipWs_char (by decide) (by decide)]
  simp only
  have hf := (parse_fuel ops (2 * ('{' :: u).length + 3)).1 ('{' :: u) (by omega)
  have hmono := parseNext_mono ops (Nat.le_max_left (2 * ('{' :: u).length + 3) N) ('{' :: u) hf
  rw [← hmono]
  exact hN _ (Nat.le_max_right _ _)

/-- The whole document: an array built element by element, then one more member. -/
theorem load_document (ops : FloatOps F) {k1 k2 : Str} (hk1 : jsonEscape k1 = k1)
    (hk2 : jsonEscape k2 = k2) {w1 w2 w3 w4 w5 w6 w7 w8 : Str} (h1 : Blank w1) (h2 : Blank w2)
    (h3 : Blank w3) (h4 : Blank w4) (h5 : Blank w5) (h6 : Blank w6) (h7 : Blank w7)
    (h8 : Blank w8) {l : List (JVal F)} {s : Str} (hs : Elems ops l s) (hl : ∀ v ∈ l, WF ops v)
    {v : JVal F} {t : Str} (ht : Printed ops v t) (hv : WF ops v) (rest : Str) :
    loadStream ops ('{' :: (w1 ++ '"' :: (k1 ++ '"' :: (w2 ++ ':' :: (w3 ++ '[' :: (s ++
      (w4 ++ ']' :: ',' :: (w5 ++ '"' :: (k2 ++ '"' :: (w6 ++ ':' :: (w7 ++ (t ++
      (w8 ++ '}' :: rest))))))))))))) =
      .ok (.obj (mapSet (mapSet [] k1 (.arr (reloadList l))) k2 (reload v))) rest := by
  apply loadStream_of_parse
  obtain ⟨step, p, ind, rfl⟩ := ht
  obtain ⟨c, t, e, c0, c1, c2⟩ := print_head ops step p ind v hv
  obtain ⟨N1, hN1⟩ := roundtrip ops step p v hv ind [] (w8 ++ '}' :: rest) blank_nil
    (delim_blank_close h8 (by decide) rest)
  obtain ⟨N2, hN2⟩ := elems_close ops hs hl h4 (',' :: (w5 ++ '"' :: (k2 ++ '"' :: (w6 ++
    ':' :: (w7 ++ (print ops step p ind v ++ (w8 ++ '}' :: rest)))))))
  refine ⟨max N1 N2 + 3, fun n hn => ?_⟩
  obtain ⟨n, rfl⟩ : ∃ m, n = m + 1 + 1 + 1 := ⟨n - 3, by omega⟩
  have a1 := hN1 n (by omega)
  have a2 := hN2 n (by omega)
  rw [List.nil_append] at a1
  rw [e] at a1 a2 ⊢
  simp only [List.cons_append] at a1 a2 ⊢
  rw [parseNext, skipWs_char (by decide) (by decide)]
  simp only [Char.reduceEq, if_false, if_true]
  have b2 : ∀ u, parseNext ops (n + 1) ('[' :: u) = parseArray ops n [] u := by
    intro u
    rw [parseNext, skipWs_char (by decide) (by decide)]
    simp
  rw [member_comma ops (n + 1) [] hk1 h1 h2 h3 (by decide) (by decide) blank_nil
    (by rw [b2, a2]; rfl)]
  rw [member_close ops n _ hk2 h5 h6 h7 c0 c1 h8 a1]

/-! ## Documents that were not finished -/

theorem consumeWs_blank_end {ws : Str} (h : Blank ws) : consumeWs ws = [] := by
  have := skipWs_blank h []
  rw [List.append_nil] at this
  rw [consumeWs, this]
  simp [skipWs]

theorem elems_open (ops : FloatOps F) {l : List (JVal F)} {s : Str} (h : Elems ops l s)
    (hwf : ∀ v ∈ l, WF ops v) (hobj : ∀ v ∈ l, ∃ m, v = .obj m) :
    ∃ N, ∀ n, N ≤ n → parseArray ops n [] s = .exc .marleyError := by
  have last : ∀ (acc : List (JVal F)) (ws : Str) (v : JVal F) (t : Str), Blank ws →
      Printed ops v t → WF ops v → (∃ m, v = .obj m) →
      ∃ N, ∀ n, N ≤ n → parseArray ops n acc (ws ++ t) = .exc .marleyError := by
    rintro acc ws v t hws ⟨step, p, ind, rfl⟩ hv ⟨m, rfl⟩
    have hm : ∀ q ∈ m, WF ops q.2 := by
      cases hv with
      | obj _ _ h => exact h
    obtain ⟨N, hN⟩ := parse_obj_text ops step p ind m hm
      (fun q hq => roundtrip ops step p q.2 (hm q hq)) [] [] blank_nil
    refine ⟨N + 1, fun n hn => ?_⟩
    obtain ⟨n, rfl⟩ : ∃ m, n = m + 1 := ⟨n - 1, by omega⟩
    have hN' := hN n (by omega)
    rw [List.nil_append, List.append_nil] at hN'
    obtain ⟨c, t, e, h0, h1, h2⟩ := print_head ops step p ind (.obj m) hv
    rw [e] at hN' ⊢
    rw [parseArray, consumeWs_blank_char hws h0 h1]
    split
    · next t' heq => cases heq; exact absurd rfl h2
    · rw [hN']
      simp only
      rw [consumeWs_blank_end blank_nil]
  cases h with
  | none ws hws =>
    refine ⟨2, fun n hn => ?_⟩
    obtain ⟨n, rfl⟩ : ∃ m, n = m + 1 + 1 := ⟨n - 2, by omega⟩
    rw [parseArray, consumeWs_blank_end hws]
    simp [parseNext, skipWs]
  | one ws v t hws ht => exact last [] ws v t hws ht (hwf v (by simp)) (hobj v (by simp))
  | more l s ws v t hl he hws ht =>
    obtain ⟨N1, hN1⟩ := last (reloadList l) ws v t hws ht (hwf v (by simp)) (hobj v (by simp))
    obtain ⟨N2, k, hN2⟩ := elems_comma ops he hl (fun w hw => hwf w (by simp [hw])) [] (ws ++ t)
    refine ⟨max N1 N2 + k, fun n hn => ?_⟩
    have h1 := hN1 (n - k) (by omega)
    have h2 := hN2 (n - k) (by omega)
    rw [List.nil_append, h1, show n - k + k = n by omega] at h2
    exact h2

theorem loadStream_of_parse_exc (ops : FloatOps F) {u : Str} {e : Exc}
    (h : ∃ N, ∀ n, N ≤ n → parseNext ops n ('{' :: u) = .exc e) :
    loadStream ops ('{' :: u) = .exc e := by
  obtain ⟨N, hN⟩ := h
  unfold loadStream
  rw [skipWs_char (by decide) (by decide)]
  simp only
  have hf := (parse_fuel ops (2 * ('{' :: u).length + 3)).1 ('{' :: u) (by omega)
  have hmono := parseNext_mono ops (Nat.le_max_left (2 * ('{' :: u).length + 3) N) ('{' :: u) hf
  rw [← hmono]
  exact hN _ (Nat.le_max_right _ _)

/-- A document whose array was not closed is refused. -/
theorem load_open (ops : FloatOps F) {k1 : Str} (hk1 : jsonEscape k1 = k1) {w1 w2 w3 : Str}
    (h1 : Blank w1) (h2 : Blank w2) (h3 : Blank w3) {s : Str}
    (hs : ∃ N, ∀ n, N ≤ n → parseArray ops n [] s = .exc .marleyError) :
    loadStream ops ('{' :: (w1 ++ '"' :: (k1 ++ '"' :: (w2 ++ ':' :: (w3 ++ '[' :: s))))) =
      .exc .marleyError := by
  apply loadStream_of_parse_exc
  obtain ⟨N2, hN2⟩ := hs
  refine ⟨N2 + 3, fun n hn => ?_⟩
  obtain ⟨n, rfl⟩ : ∃ m, n = m + 1 + 1 + 1 := ⟨n - 3, by omega⟩
  have a2 := hN2 n (by omega)
  rw [parseNext, skipWs_char (by decide) (by decide)]
  simp only [Char.reduceEq, if_false, if_true]
  have b2 : parseNext ops (n + 1) ('[' :: s) = .exc .marleyError := by
    rw [parseNext, skipWs_char (by decide) (by decide)]
    simp [a2]
  have := parseObject_quoted ops (n + 1) [] h1 k1 (w2 ++ ':' :: (w3 ++ '[' :: s))
  rw [hk1] at this
  rw [this, skipWs_blank_char h2 (by decide) (by decide)]
  simp only
  rw [consumeWs_blank_char h3 (by decide) (by decide), b2]

end Marley.Json
