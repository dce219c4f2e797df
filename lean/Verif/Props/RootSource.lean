import Verif.Model.RootSource
import Verif.Props.SourceDensity

/-!
# C105: neutrino sources from ROOT files
-/

set_option autoImplicit false

namespace Marley.Props
open Marley Marley.Source Marley.Json
open Marley.Grid (Interp)
open MeasureTheory

/-! ## The loop over the bins -/

theorem divide_loop (ws : List ℝ) : ∀ (preE pre edges : List ℝ) (x : ℝ), preE.length = pre.length →
    edges.length = ws.length + 1 →
    (List.range' pre.length ws.length).foldlM (divideBin (preE ++ edges)) (pre ++ ws ++ [x]) =
      match densities edges (ws ++ [x]) with
      | .error e => .error e
      | .ok ys => .ok (pre ++ ys) := by
  induction ws with
  | nil =>
    intro preE pre edges x _ hl
    match edges, hl with
    | [e], _ => simp [densities]; rfl
  | cons w ws ih =>
    intro preE pre edges x hp hl
    match edges, hl with
    | E :: E' :: Es, hl =>
      rw [List.length_cons, List.range'_succ, List.foldlM_cons]
      have h1 : (preE ++ E :: E' :: Es)[pre.length + 1]? = some E' := by
        rw [← hp, List.getElem?_append_right (by omega)]; simp
      have h2 : (preE ++ E :: E' :: Es)[pre.length]? = some E := by
        rw [← hp, List.getElem?_append_right (by omega)]; simp
      have h3 : (pre ++ w :: ws ++ [x])[pre.length]? = some w := by
        rw [List.append_assoc, List.getElem?_append_right (by omega)]; simp
      have hd : divideBin (preE ++ E :: E' :: Es) (pre ++ w :: ws ++ [x]) pre.length =
          if E' - E ≤ 0 then .error .marleyError
          else .ok ((pre ++ w :: ws ++ [x]).set pre.length (w / (E' - E))) := by
        unfold divideBin; rw [h1, h2, h3]
      rw [hd, List.cons_append, densities]
      by_cases hw : E' - E ≤ 0
      · rw [if_pos hw, if_pos hw]; rfl
      · rw [if_neg hw, if_neg hw]
        have hs : (pre ++ w :: ws ++ [x]).set pre.length (w / (E' - E)) =
            (pre ++ [w / (E' - E)]) ++ ws ++ [x] := by
          rw [List.append_assoc, List.set_append_right _ _ (by omega)]; simp
        have := ih (preE ++ [E]) (pre ++ [w / (E' - E)]) (E' :: Es) x (by simp [hp]) (by simpa using hl)
        rw [hs]
        show List.foldlM _ ((pre ++ [w / (E' - E)]) ++ ws ++ [x]) _ = _
        rw [List.length_append, List.length_singleton] at this
        rw [List.append_assoc preE, List.singleton_append] at this
        rw [this]
        cases densities (E' :: Es) (ws ++ [x]) with
        | error e => rfl
        | ok ys => simp

/-- What is behind the last bin plays no role. -/
theorem densities_last (ws : List ℝ) : ∀ edges : List ℝ, edges.length = ws.length + 1 →
    (∀ x, densities edges (ws ++ [x]) = .error .marleyError) ∨
    ∃ zs, zs.length = ws.length ∧ ∀ x, densities edges (ws ++ [x]) = .ok (zs ++ [x]) := by
  induction ws with
  | nil =>
    intro edges hl
    match edges, hl with
    | [e], _ => exact .inr ⟨[], rfl, fun x => by simp [densities]⟩
  | cons w ws ih =>
    intro edges hl
    match edges, hl with
    | E :: E' :: Es, hl =>
      by_cases hw : E' - E ≤ 0
      · left; intro x; rw [List.cons_append, densities, if_pos hw]
      · rcases ih (E' :: Es) (by simpa using hl) with h | ⟨zs, h1, h2⟩
        · left; intro x; rw [List.cons_append, densities, if_neg hw, h]
        · exact .inr ⟨w / (E' - E) :: zs, by simp [h1], fun x => by
            rw [List.cons_append, densities, if_neg hw, h2]; rfl⟩

/-! ## C105 -/

/-- The left edges of the bins of a histogram, without underflow and overflow. -/
def binLefts (h : TH1) : List ℝ := (List.range h.bins).map fun c => h.lowEdge (c + 1)

/-- The contents of the bins. -/
def binContents (h : TH1) : List ℝ := (List.range h.bins).map fun c => h.content (c + 1)

/-- **C105** (histograms).  A ROOT histogram gives the same source, or the same exception, as a
histogram written into the configuration with the left edges of its bins, their contents,
and the left edge of the overflow bin as the maximum. -/
theorem C105_th1 (pdg : Int) (h : TH1) : th1Source pdg (some h) =
    histogram pdg (binLefts h) (binContents h) (h.lowEdge (h.bins + 1)) := by
  have hE : (List.range (h.bins + 1)).map (fun c => h.lowEdge (c + 1)) =
      binLefts h ++ [h.lowEdge (h.bins + 1)] := by
    rw [List.range_succ, List.map_append]; rfl
  have hP : (List.range (h.bins + 1)).map (fun c => h.content (c + 1)) =
      binContents h ++ [h.content (h.bins + 1)] := by
    rw [List.range_succ, List.map_append]; rfl
  have hl : (binLefts h ++ [h.lowEdge (h.bins + 1)]).length = (binContents h).length + 1 := by
    simp [binLefts, binContents]
  have hb : h.bins = (binContents h).length := by simp [binContents]
  have loop := divide_loop (binContents h) [] [] (binLefts h ++ [h.lowEdge (h.bins + 1)])
    (h.content (h.bins + 1)) rfl hl
  rw [← hb, List.nil_append, List.nil_append, List.length_nil, ← List.range_eq_range'] at loop
  simp only [th1Source, histogram, hE, hP, Nat.add_sub_cancel, loop]
  rcases densities_last _ _ hl with h1 | ⟨zs, h1, h2⟩
  · rw [h1, h1]; rfl
  · rw [h2, h2]
    show mkGridVectors _ _ (([] ++ (zs ++ [h.content (h.bins + 1)])).set _ 0) _ = _
    congr 1
    simp

/-- A ROOT histogram that can be used: edges that increase and are doubles that are not
negative (the first one not zero), and contents of its bins that are not negative and not
all zero.  Nothing is said about the underflow and overflow bins. -/
structure GoodTH1 (h : TH1) : Prop where
  edges : ∀ b, 1 ≤ b → b ≤ h.bins → h.lowEdge b < h.lowEdge (b + 1)
  first : tiny < h.lowEdge 1
  contents : ∀ b, 1 ≤ b → b ≤ h.bins → 0 ≤ h.content b
  sum : 0 < ∑ b ∈ Finset.Icc 1 h.bins, h.content b

theorem binContents_sum (h : TH1) : (binContents h).sum = ∑ b ∈ Finset.Icc 1 h.bins, h.content b := by
  unfold binContents
  generalize h.bins = n
  induction n with
  | zero => simp
  | succ n ih =>
    rw [List.range_succ, List.map_append, List.sum_append, ih, Finset.sum_Icc_succ_top (by omega)]
    simp

theorem GoodTH1.lt {h : TH1} (g : GoodTH1 h) {a b : Nat} (h1 : 1 ≤ a) (h2 : a < b) (h3 : b ≤ h.bins + 1) :
    h.lowEdge a < h.lowEdge b := by
  induction b with
  | zero => omega
  | succ b ih =>
    have := g.edges b (by omega) (by omega)
    rcases (show a = b ∨ a < b by omega) with rfl | h4
    · exact this
    · exact (ih h4 (by omega)).trans this

theorem GoodTH1.edge_list (h : TH1) (j : Nat) (hj : j ≤ h.bins) :
    (binLefts h ++ [h.lowEdge (h.bins + 1)])[j]? = some (h.lowEdge (j + 1)) := by
  have hE : binLefts h ++ [h.lowEdge (h.bins + 1)] =
      (List.range (h.bins + 1)).map (fun c => h.lowEdge (c + 1)) := by
    rw [List.range_succ, List.map_append]; rfl
  rw [hE, List.getElem?_map, List.getElem?_range (by omega)]; rfl

theorem GoodTH1.tiny_lt {h : TH1} (g : GoodTH1 h) {b : Nat} (h1 : 1 ≤ b) (h2 : b ≤ h.bins + 1) :
    tiny < h.lowEdge b := by
  rcases (show b = 1 ∨ 1 < b by omega) with rfl | h3
  · exact g.first
  · exact g.first.trans (g.lt le_rfl h3 h2)

theorem GoodTH1.histogram {h : TH1} (g : GoodTH1 h) :
    GoodHistogram (binLefts h) (binContents h) (h.lowEdge (h.bins + 1)) where
  size := by simp [binLefts, binContents]
  edges := by
    rw [List.pairwise_iff_getElem]
    intro i j hi hj hij
    have hl : (binLefts h ++ [h.lowEdge (h.bins + 1)]).length = h.bins + 1 := by simp [binLefts]
    have e1 := GoodTH1.edge_list h i (by omega)
    have e2 := GoodTH1.edge_list h j (by omega)
    rw [List.getElem?_eq_getElem hi, Option.some.injEq] at e1
    rw [List.getElem?_eq_getElem hj, Option.some.injEq] at e2
    rw [e1, e2]
    exact g.lt (by omega) (by omega) (by omega)
  doubles := by
    intro E hE
    right
    rcases List.mem_append.1 hE with h1 | h1
    · obtain ⟨c, hc, rfl⟩ := List.mem_map.1 h1
      have := List.mem_range.1 hc
      exact g.tiny_lt (by omega) (by omega)
    · rw [List.mem_singleton] at h1
      rw [h1]; exact g.tiny_lt (by omega) le_rfl
  weights := by
    intro w hw
    obtain ⟨c, hc, rfl⟩ := List.mem_map.1 hw
    have := List.mem_range.1 hc
    exact g.contents _ (by omega) (by omega)
  sum := by rw [binContents_sum]; exact g.sum

/-- **C105** (what a histogram means).  The source made from a good ROOT histogram emits
the chosen species; the probability of each bin is its content divided by the sum of the
contents, uniformly distributed over the bin, and energies below the first bin or in the
overflow bin do not occur.  The contents of the underflow and overflow bins play no role.

Partial: the first edge is not zero (see `C69_zero_edge`), doubles are real numbers. -/
theorem C105_th1_bins_partial {pdg : Int} (hp : Neutrino pdg) {h : TH1} (g : GoodTH1 h) :
    ∃ (s : Source) (f : ℝ → ℝ), th1Source pdg (some h) = .ok s ∧ s.pid = pdg ∧
      (∀ E, s.pdf E = .ok (some (f E))) ∧
      (∀ b, 1 ≤ b → b ≤ h.bins →
        (∫ E in h.lowEdge b..h.lowEdge (b + 1), f E) / (∫ E, f E) =
          h.content b / ∑ k ∈ Finset.Icc 1 h.bins, h.content k ∧
        ∀ E, h.lowEdge b < E → E ≤ h.lowEdge (b + 1) →
          f E = h.content b / (h.lowEdge (b + 1) - h.lowEdge b)) ∧
      ∀ E, E < h.lowEdge 1 ∨ h.lowEdge (h.bins + 1) < E → f E = 0 := by
  have h0 : (0 : ℝ) ∉ binLefts h := by
    intro hm
    obtain ⟨c, hc, he⟩ := List.mem_map.1 hm
    have := List.mem_range.1 hc
    have := g.tiny_lt (b := c + 1) (by omega) (by omega)
    have := tiny_pos
    linarith
  obtain ⟨s, f, e1, e2, e3, e4, e5, e6⟩ := C69_density hp g.histogram
  obtain ⟨s', f', d1, d2, -, d3⟩ := C69_bins_partial hp g.histogram h0
  rw [e1] at d1
  injection d1 with d1
  subst d1
  have hff : f' = f := by
    funext E
    have := (d2 E).symm.trans (e3 E)
    simpa using this
  subst hff
  have stored : ∀ b, 1 ≤ b → b ≤ h.bins + 1 → storedEdge (h.lowEdge b) = h.lowEdge b := by
    intro b h1 h2
    have := g.tiny_lt h1 h2
    have := tiny_pos
    unfold storedEdge
    rw [if_neg (by linarith)]
  have content : ∀ b, 1 ≤ b → b ≤ h.bins → (binContents h)[b - 1]? = some (h.content b) := by
    intro b h1 h2
    unfold binContents
    rw [List.getElem?_map, List.getElem?_range (by omega)]
    simp only [Option.map_some]
    congr 2; omega
  refine ⟨s, f', by rw [C105_th1]; exact e1, e2, e3, ?_, ?_⟩
  · intro b h1 h2
    have j1 := GoodTH1.edge_list h (b - 1) (by omega)
    have j2 := GoodTH1.edge_list h (b - 1 + 1) (by omega)
    rw [show b - 1 + 1 = b by omega] at j1 j2
    constructor
    · rw [← binContents_sum]
      exact (d3 (b - 1) _ _ _ j1 (by rw [show b - 1 + 1 = b by omega]; exact j2) (content b h1 h2)).2
    · intro E h3 h4
      exact e4 (b - 1) _ _ _ j1 (by rw [show b - 1 + 1 = b by omega]; exact j2) (content b h1 h2) E
        (by rw [stored b h1 (by omega)]; exact h3) h4
  · rintro E (hE | hE)
    · refine e5 _ (GoodTH1.edge_list h 0 (by omega)) E ?_
      rw [stored 1 le_rfl (by omega)]; exact hE
    · exact e6 E hE

/-- A histogram with three bins and something in the overflow bin. -/
noncomputable def exTH1 : TH1 := ⟨3, fun b => b, fun b => if b = 2 then 3 else 1⟩

theorem exTH1_good : GoodTH1 exTH1 where
  edges := by intro b _ _; simp [exTH1]
  first := by simpa [exTH1] using tiny_lt_one
  contents := by intro b _ _; simp only [exTH1]; split <;> norm_num
  sum := by
    have : Finset.Icc 1 exTH1.bins = {1, 2, 3} := by rfl
    rw [this]; norm_num [exTH1]

/-- Its second bin has three fifths of the neutrinos. -/
example : ∃ (s : Source) (f : ℝ → ℝ), th1Source 12 (some exTH1) = .ok s ∧
    (∀ E, s.pdf E = .ok (some (f E))) ∧ (∫ E in (2 : ℝ)..3, f E) / (∫ E, f E) = 3 / 5 := by
  obtain ⟨s, f, h1, -, h2, h3, -⟩ := C105_th1_bins_partial (pdg := 12) (.inl rfl) exTH1_good
  refine ⟨s, f, h1, h2, ?_⟩
  have := (h3 2 (by norm_num) (by simp [exTH1])).1
  have e : Finset.Icc 1 exTH1.bins = {1, 2, 3} := by rfl
  rw [e] at this
  norm_num [exTH1] at this ⊢
  exact this

/-- A graph that can be used: at least two points, with increasing energies that are doubles
above zero, and densities that are not negative and not all zero. -/
structure GoodGraph (l : List (ℝ × ℝ)) : Prop where
  size : 2 ≤ l.length
  order : l.Pairwise (fun p q => p.1 < q.1)
  energies : ∀ p ∈ l, 0 < p.1
  values : ∀ p ∈ l, 0 ≤ p.2
  sum : 0 < (l.map Prod.snd).sum

/-- **C105** (graphs).  The source made from a ROOT graph has the density given by the graph:
at each of its points the value there, between two points the straight line, outside zero. -/
theorem C105_tgraph_partial {pdg : Int} (hp : Neutrino pdg) {l : List (ℝ × ℝ)} (g : GoodGraph l) :
    ∃ s, tgraphSource pdg (some l) = .ok s ∧ s.pid = pdg ∧
      (∀ i p q, l[i]? = some p → l[i + 1]? = some q → ∀ E, p.1 ≤ E → E ≤ q.1 →
        s.pdf E = .ok (some (p.2 + (q.2 - p.2) / (q.1 - p.1) * (E - p.1)))) ∧
      (∀ p, l.head? = some p → ∀ E, E < p.1 → s.pdf E = .ok (some 0)) ∧
      ∀ p, l.getLast? = some p → ∀ E, p.1 < E → s.pdf E = .ok (some 0) := by
  have hz : (l.map Prod.fst).zip (l.map Prod.snd) = l := by
    rw [List.zip_map', List.map_id'']; intro p; rfl
  have ev : tgraphSource pdg (some l) = mkGrid pdg ⟨.linearLinear, .zero, l⟩ := by
    show mkGridVectors _ _ _ _ = _
    rw [(C44_vectors _ _ _ _).1 (by simp), hz]
  obtain ⟨s, hs⟩ := (C44_table_accepted hp ⟨.linearLinear, .zero, l⟩).1.1
    ⟨g.size, fun p hp => ⟨(g.energies p hp).le, g.values p hp⟩, g.sum⟩
  obtain ⟨g', a1, a2, a3, a4, -⟩ := C44_table_stored hs
  have hpt : g'.points = l := by
    rw [a4]
    refine (List.map_congr_left fun p hp => ?_).trans (List.map_id _)
    rw [if_neg (g.energies p hp).ne']; rfl
  have hinc : Grid.Increasing g'.points := by rw [hpt]; exact g.order
  have hsor : Grid.Sorted g'.points := by
    rw [hpt]; exact g.order.imp fun h => h.le
  have hpdf : ∀ E, s.pdf E = Grid.interpolate g' E := by
    intro E
    obtain ⟨i, sp⟩ := s
    cases a1; rfl
  refine ⟨s, by rw [ev]; exact hs, (mkGrid_pid hs).2, ?_, ?_, ?_⟩
  · intro i p q h1 h2 E h3 h4
    rw [← hpt] at h1 h2
    obtain ⟨v, e1, -, -, e2⟩ := C13_linear_between_neighbours g' a2 hinc i p q h1 h2 E h3 h4
    rw [hpdf, e1, e2]
  · intro p h1 E hE
    have hl := g.size
    rw [List.head?_eq_getElem?, ← hpt] at h1
    obtain ⟨q, hq⟩ : ∃ q, g'.points[1]? = some q := by
      rw [hpt]; exact ⟨_, List.getElem?_eq_getElem (by omega)⟩
    rw [hpdf, (C14_left_of_range g' hsor p q h1 hq E hE).1 (by rw [a3]; simp), a3, outsideSpec]
  · intro p h1 E hE
    have hl := g.size
    rw [List.getLast?_eq_getElem?, ← hpt] at h1
    obtain ⟨k, hk⟩ : ∃ k, k + 2 = g'.points.length := ⟨g'.points.length - 2, by rw [hpt]; omega⟩
    obtain ⟨q, hq⟩ : ∃ q, g'.points[k]? = some q := ⟨_, List.getElem?_eq_getElem (by omega)⟩
    rw [show g'.points.length - 1 = k + 1 by omega] at h1
    rw [hpdf, (C14_right_of_range g' hsor k q p hk hq h1 E hE).1 (by rw [a3]; simp), a3, outsideSpec]

example : GoodGraph [(1, 0), (2, 5), (4, 1)] where
  size := by norm_num
  order := by norm_num
  energies := by
    intro p hp
    simp only [List.mem_cons, List.not_mem_nil, or_false] at hp
    rcases hp with rfl | rfl | rfl <;> norm_num
  values := by
    intro p hp
    simp only [List.mem_cons, List.not_mem_nil, or_false] at hp
    rcases hp with rfl | rfl | rfl <;> norm_num
  sum := by norm_num

/-- Other types are refused. -/
theorem build_other {type : Str} {pdg : ℤ} (j : JVal ℝ) (ho : type ∉ ownTypes) :
    build type pdg j = .error .marleyError := by
  simp only [ownTypes, List.mem_cons, List.not_mem_nil, or_false, not_or] at ho
  obtain ⟨h1, h2, h3, h4, h5, h6, h7, h8, h9, h10, h11, h12, h13⟩ := ho
  unfold build
  rw [if_neg (fun h => h.elim h1 h2), if_neg (fun h => h.elim h3 h4),
    if_neg (fun h => h.elim h5 (fun h => h.elim h6 h7)),
    if_neg (fun h => h.elim h8 (fun h => h.elim h9 h10)),
    if_neg (fun h => h.elim h11 h12), if_neg h13]

/-- **C105** (configurations).  With ROOT, a configuration of type `th1` or `tgraph` gives
exactly the source made from the named object of the named file; a file that cannot be
opened, an object that is missing or of another kind, and a missing key are answered by
`marley::Error`.  Every other configuration gives what it gives without ROOT. -/
theorem C105_configured (R : RootFiles) (j : JVal ℝ) {type nu : Str} {pdg : Int}
    (hn : j ≠ .null) (ht : getText j "type".toList = .ok type) (hnu : getText j "neutrino".toList = .ok nu)
    (hp : neutrinoPdg nu = .ok pdg) :
    (type ≠ "th1".toList → type ≠ "tgraph".toList → fromSpecRoot R j = fromSpec j) ∧
    (type = "th1".toList ∨ type = "tgraph".toList →
      (hasKey j "tfile".toList = false ∨ hasKey j "namecycle".toList = false →
        fromSpecRoot R j = .error .marleyError) ∧
      ∀ file name, sourceGet j "tfile".toList = .ok file → sourceGet j "namecycle".toList = .ok name →
        (R file = none → fromSpecRoot R j = .error .marleyError) ∧
        ∀ f, R file = some f →
          (∀ h, type = "th1".toList → f name = some (.th1 h) →
            fromSpecRoot R j = (th1Source pdg (some h)).map some) ∧
          (∀ l, type = "tgraph".toList → f name = some (.tgraph l) →
            fromSpecRoot R j = (tgraphSource pdg (some l)).map some) ∧
          (type = "th1".toList → (∀ h, f name ≠ some (.th1 h)) → fromSpecRoot R j = .error .marleyError) ∧
          (type = "tgraph".toList → (∀ l, f name ≠ some (.tgraph l)) →
            fromSpecRoot R j = .error .marleyError)) := by
  have e0 : fromSpec j = (build type pdg j >>= fun s => Except.ok (some s)) := by
    cases j with
    | null => exact absurd rfl hn
    | _ => unfold fromSpec; simp only [ht, hnu]; simp only [bind, Except.bind, hp]
  have e1 : fromSpecRoot R j = ((if type ∈ ownTypes then build type pdg j
        else match rootBuild R type pdg j with
          | none => .error .marleyError
          | some r => r) >>= fun s => Except.ok (some s)) := by
    cases j with
    | null => exact absurd rfl hn
    | _ =>
      unfold fromSpecRoot
      simp only [ht, hnu]
      simp only [bind, Except.bind, hp]
      split
      · rfl
      · cases rootBuild R type pdg _ <;> rfl
  constructor
  · intro h1 h2
    rw [e0, e1]
    congr 1
    by_cases ho : type ∈ ownTypes
    · rw [if_pos ho]
    · rw [if_neg ho]
      have : rootBuild R type pdg j = none := by unfold rootBuild; rw [if_pos ⟨h1, h2⟩]
      rw [this]
      exact (build_other j ho).symm
  · intro ht'
    have ho : type ∉ ownTypes := by rcases ht' with rfl | rfl <;> decide
    have hr : rootBuild R type pdg j = some (do
        let file ← sourceGet j "tfile".toList
        let name ← sourceGet j "namecycle".toList
        if type = "th1".toList then
          let h ← getTH1 R file name
          th1Source pdg h
        else
          let g ← getTGraph R file name
          tgraphSource pdg g) := by
      unfold rootBuild
      exact if_neg (fun h => ht'.elim h.1 h.2)
    rw [if_neg ho, hr] at e1
    dsimp only at e1
    have miss : ∀ k, hasKey j k = false → sourceGet j k = .error .marleyError := by
      intro k hk; unfold sourceGet; rw [hk]; rfl
    have other : ∀ k e, sourceGet j k = .error e → e = .marleyError := by
      intro k e he
      unfold sourceGet at he
      cases j with
      | obj m =>
        cases hm : mapFind m k with
        | none => simp [hasKey, hm] at he; exact he.symm
        | some v =>
          simp only [hasKey, at?, hm, Option.isSome_some, if_true] at he
          cases v <;> simp [toStringOrThrow] at he <;> exact he.symm
      | _ => simp [hasKey] at he; exact he.symm
    constructor
    · intro hk
      rw [e1]
      cases h1 : sourceGet j "tfile".toList with
      | error e => rw [other _ _ h1]; rfl
      | ok file =>
        cases h2 : sourceGet j "namecycle".toList with
        | error e => rw [other _ _ h2]; rfl
        | ok name =>
          rcases hk with hk | hk
          · rw [miss _ hk] at h1; cases h1
          · rw [miss _ hk] at h2; cases h2
    · intro file name h1 h2
      have okb : ∀ (a : Str) (f : Str → Res Source), (Except.ok a >>= f) = f a := fun _ _ => rfl
      rw [h1, okb, h2, okb] at e1
      rw [e1]
      have hne : "tgraph".toList ≠ "th1".toList := by decide
      have bnd : ∀ {r : Res Source}, (r >>= fun s => Except.ok (some s)) = r.map some := by
        intro r; cases r <;> rfl
      constructor
      · intro hR
        rcases ht' with rfl | rfl
        · simp [getTH1, hR]; rfl
        · rw [if_neg hne]; simp [getTGraph, hR]; rfl
      · intro f hR
        refine ⟨?_, ?_, ?_, ?_⟩
        · rintro h rfl hf
          simp only [if_true, getTH1, hR, hf]
          exact bnd
        · rintro l rfl hf
          simp only [getTGraph, hR, hf]
          rw [if_neg hne]
          exact bnd
        · rintro rfl hf
          have : getTH1 R file name = .ok none := by
            simp only [getTH1, hR]
          simp only [if_true, this]
          rfl
        · rintro rfl hf
          have : getTGraph R file name = .ok none := by
            simp only [getTGraph, hR]
          simp only [this]
          rw [if_neg hne]
          rfl

/-- A configuration with a ROOT histogram. -/
noncomputable def exSpec : JVal ℝ := .obj [("type".toList, .str "th1".toList), ("neutrino".toList, .str "ve".toList),
  ("tfile".toList, .str "f.root".toList), ("namecycle".toList, .str "h".toList)]

/-- Files with one histogram. -/
noncomputable def exFiles : RootFiles := fun file => if file = "f.root".toList then
  some (fun name => if name = "h".toList then some (.th1 exTH1) else none) else none

example : fromSpecRoot exFiles exSpec = (th1Source 12 (some exTH1)).map some := by
  have h := C105_configured exFiles exSpec (type := "th1".toList) (nu := "ve".toList) (pdg := 12)
    (by simp [exSpec]) rfl rfl rfl
  exact ((h.2 (.inl rfl)).2 "f.root".toList "h".toList rfl rfl |>.2 _ rfl).1 exTH1 rfl rfl

/-- **C105** (names of files), violated: the names are used with the escape sequences of
JSON text.  A file whose name contains a backslash is not found, although it exists, has the
histogram, and a source can be made from it. -/
theorem C105_name_violated :
    ∃ (R : RootFiles) (file name : Str) (f : Str → Option RootObject) (h : TH1) (s : Source),
      R file = some f ∧ f name = some (.th1 h) ∧ th1Source 12 (some h) = .ok s ∧
      fromSpecRoot R (.obj [("type".toList, .str "th1".toList), ("neutrino".toList, .str "ve".toList),
        ("tfile".toList, .str file), ("namecycle".toList, .str name)]) = .error .marleyError := by
  obtain ⟨s, -, h1, -⟩ := C105_th1_bins_partial (pdg := 12) (.inl rfl) exTH1_good
  refine ⟨fun file => if file = ['a', '\\', 'b'] then some (fun _ => some (.th1 exTH1)) else none,
    ['a', '\\', 'b'], ['h'], fun _ => some (.th1 exTH1), exTH1, s, if_pos rfl, rfl, h1, ?_⟩
  refine (((C105_configured _ _ (type := "th1".toList) (nu := "ve".toList) (pdg := 12)
    (by simp) rfl rfl rfl).2 (.inl rfl)).2 ['a', '\\', '\\', 'b'] ['h'] rfl rfl).1 ?_
  exact if_neg (by decide)

end Marley.Props
