import Verif.Spec.DumpXs
import Verif.Props.OutputFile
import Mathlib.Tactic.FieldSimp
import Mathlib.Tactic.Positivity
import Mathlib.Tactic.Linarith

/-!
# Properties of tables of cross sections (C109)
-/

set_option autoImplicit false

namespace Marley.Props
open Marley Marley.Json Marley.Out Marley.Rdr

variable {K : Type}

theorem dump_getDouble (ofLong : Int → K) (m : List (Str × JVal K)) (key : String) (d v : K)
    (h : DumpXs.Says m key (DumpXs.number ofLong) d v) : DumpXs.getDouble ofLong (.obj m) key.toList d = .ok v := by
  unfold DumpXs.Says at h
  simp only [DumpXs.getDouble, hasKey, at?, mapFind_eq_lookup]
  rcases hl : m.lookup key.toList with _ | x
  · rw [hl] at h; simp [h]
  · rw [hl] at h
    cases x <;> simp_all [DumpXs.number, Event.toDouble?]

theorem wrap32_small {n : Int} (h : -2147483648 ≤ n ∧ n ≤ 2147483647) : Event.wrap32 n = n := by
  unfold Event.wrap32; omega

theorem dump_getInt (m : List (Str × JVal K)) (key : String) (d v : Int)
    (h : DumpXs.Says m key DumpXs.smallInt d v) : DumpXs.getInt (.obj m) key.toList d = .ok v := by
  unfold DumpXs.Says at h
  simp only [DumpXs.getInt, hasKey, at?, mapFind_eq_lookup]
  rcases hl : m.lookup key.toList with _ | x
  · rw [hl] at h; simp [h]
  · rw [hl] at h
    cases x with
    | int n =>
      simp only [DumpXs.smallInt] at h
      split at h
      · next hn => cases h; simp [toLong?, wrap32_small hn]
      · cases h
    | _ => simp [DumpXs.smallInt] at h

theorem unitFactor_eq [Field K] : (unitFactor : K) = squareInverseMeV := by
  simp only [unitFactor, squareInverseMeV]; ring

theorem dumpLoop_table [Field K] (num : K → Str) (xs : Int → K → Res K) (pdg : Int) (delta : K) (n : Nat) (E : K)
    (text : Str) : DumpXs.dumpLoop num xs pdg delta n E text =
      (DumpXs.table num (xs pdg) ((List.range n).map (fun (i : Nat) => E + ((i : K) + 1) * delta))).map (text ++ ·) := by
  induction n generalizing E text with
  | zero => simp [DumpXs.dumpLoop, DumpXs.table, Except.map]
  | succ n ih =>
    have e0 : E + (((0 : Nat) : K) + 1) * delta = E + delta := by push_cast; ring
    have e1 : (List.map Nat.succ (List.range n)).map (fun (i : Nat) => E + ((i : K) + 1) * delta) =
        (List.range n).map (fun (i : Nat) => E + delta + ((i : K) + 1) * delta) := by
      rw [List.map_map]
      apply List.map_congr_left
      intro i _
      simp only [Function.comp_apply]
      push_cast
      ring
    rw [List.range_succ_eq_map, List.map_cons, e0, e1, DumpXs.table, DumpXs.dumpLoop]
    rcases xs pdg (E + delta) with e | x
    · rfl
    · dsimp only
      rw [ih]
      rcases DumpXs.table num (xs pdg) ((List.range n).map (fun (i : Nat) => E + delta + ((i : K) + 1) * delta)) with e | t
      · rfl
      · simp [Except.map, DumpXs.line, unitFactor_eq]

/-- **C109** (the table).  `mardumpxs` writes one line for each of the energies that the configuration asks for, in
order, with the total cross section of the generator for the projectile asked for, in 10⁻⁴² cm².
If a cross section cannot be computed, the exception ends the program. -/
theorem C109_table_partial [Field K] (num : K → Str) (ofLong : Int → K)
    (config : Str → Res (JVal K × (Int → K → Res K))) (existing : Str → Option Str) (input : List Str)
    (out name : Str) (more : List Str) (m : List (Str × JVal K)) (xs : Int → K → Res K) (s : DumpXs.Settings K)
    (hask : existing out = none ∨ SaysYes input) (hc : config name = .ok (.obj m, xs)) (hs : DumpXs.Gives ofLong m s) :
    DumpXs.mardumpxs num ofLong config existing input (out :: name :: more) =
      match DumpXs.table num (xs s.pdg) s.energies with
      | .ok text => .finished text
      | .error e => .crashed e := by
  have hno : ¬ ((existing out).isSome ∧ promptYesNo input = false) := by
    rintro ⟨h1, h2⟩
    rcases hask with h3 | h3
    · rw [h3] at h1; cases h1
    · rw [(promptYesNo_iff input).2 h3] at h2; cases h2
  obtain ⟨h1, h2, h3, h4⟩ := hs
  rw [DumpXs.mardumpxs, if_neg hno, hc]
  simp only [DumpXs.dump, dump_getDouble ofLong m _ _ _ h1, dump_getDouble ofLong m _ _ _ h2,
    dump_getInt m _ _ _ h3, dump_getInt m _ _ _ h4, dumpLoop_table]
  unfold DumpXs.Settings.energies
  rcases DumpXs.table num (xs s.pdg) ((List.range s.steps.toNat).map
    (fun (i : Nat) => s.KEmin + ((i : K) + 1) * ((s.KEmax - s.KEmin) / s.steps))) with e | t <;> simp [Except.map]

/-- **C109** (the energies).  There are as many as asked for; they are the first multiples of one step above the lower
end of the range, and the last one is the upper end. -/
theorem C109_energies [Field K] [LinearOrder K] [IsStrictOrderedRing K] (s : DumpXs.Settings K) :
    s.energies.length = s.steps.toNat ∧
    (∀ h : 0 < s.steps, s.energies.getLast? = some s.KEmax) ∧
    (∀ i (h : i + 1 < s.energies.length), (s.energies[i + 1] - s.energies[i]) * s.steps = s.KEmax - s.KEmin) ∧
    (∀ h : 0 < s.energies.length, (s.energies[0] - s.KEmin) * s.steps = s.KEmax - s.KEmin) ∧
    (s.KEmin < s.KEmax → ∀ E ∈ s.energies, s.KEmin < E ∧ E ≤ s.KEmax) := by
  have hlen : s.energies.length = s.steps.toNat := by simp [DumpXs.Settings.energies]
  have hpos : 0 < s.energies.length → (0 : K) < s.steps := by
    intro h; rw [hlen] at h; exact_mod_cast (by omega : 0 < s.steps)
  refine ⟨hlen, fun h => ?_, fun i h => ?_, fun h => ?_, fun hk E hE => ?_⟩
  · obtain ⟨n, hn⟩ : ∃ n : Nat, s.steps = (n : Int) + 1 := ⟨(s.steps - 1).toNat, by omega⟩
    have hn' : s.steps.toNat = n + 1 := by omega
    have hz : ((n : K) + 1) ≠ 0 := by positivity
    unfold DumpXs.Settings.energies
    rw [hn', List.range_succ, List.map_append, List.map_singleton, List.getLast?_append, List.getLast?_singleton,
      Option.some_or, hn]
    congr 1
    push_cast
    field_simp
    ring
  · have hz : (s.steps : K) ≠ 0 := (hpos (by omega)).ne'
    simp only [DumpXs.Settings.energies, List.getElem_map, List.getElem_range]
    push_cast
    field_simp
    ring
  · have hz : (s.steps : K) ≠ 0 := (hpos h).ne'
    simp only [DumpXs.Settings.energies, List.getElem_map, List.getElem_range]
    push_cast
    field_simp
    ring
  · have hz : (0 : K) < s.steps := hpos (List.length_pos_of_mem hE)
    simp only [DumpXs.Settings.energies, List.mem_map, List.mem_range] at hE
    obtain ⟨i, hi, rfl⟩ := hE
    have hd : 0 < (s.KEmax - s.KEmin) / s.steps := div_pos (sub_pos.2 hk) hz
    have hi' : ((i : K) + 1) ≤ s.steps := by exact_mod_cast (by omega : (i : Int) + 1 ≤ s.steps)
    constructor
    · have : 0 < ((i : K) + 1) * ((s.KEmax - s.KEmin) / s.steps) := by positivity
      linarith
    · have h1 : ((i : K) + 1) * ((s.KEmax - s.KEmin) / s.steps) ≤ s.steps * ((s.KEmax - s.KEmin) / s.steps) :=
        mul_le_mul_of_nonneg_right hi' hd.le
      rw [mul_div_cancel₀ _ hz.ne'] at h1
      linarith

/-- **C109** (settings).  An entry that is no number, or for the last two no integer, leads to `marley::Error`. -/
theorem C109_settings [Field K] (num : K → Str) (ofLong : Int → K) (config : Str → Res (JVal K × (Int → K → Res K)))
    (existing : Str → Option Str) (input : List Str) (out name : Str) (more : List Str) (m : List (Str × JVal K))
    (xs : Int → K → Res K) (hask : existing out = none ∨ SaysYes input) (hc : config name = .ok (.obj m, xs))
    (hbad : (∃ x, (m.lookup "xsec_dump_KEmin".toList = some x ∨ m.lookup "xsec_dump_KEmax".toList = some x) ∧
        DumpXs.number ofLong x = none) ∨
      ∃ x, (m.lookup "xsec_dump_steps".toList = some x ∨ m.lookup "xsec_dump_pdg".toList = some x) ∧ ∀ n, x ≠ .int n) :
    DumpXs.mardumpxs num ofLong config existing input (out :: name :: more) = .crashed .marleyError := by
  have hno : ¬ ((existing out).isSome ∧ promptYesNo input = false) := by
    rintro ⟨h1, h2⟩
    rcases hask with h3 | h3
    · rw [h3] at h1; cases h1
    · rw [(promptYesNo_iff input).2 h3] at h2; cases h2
  have hd : ∀ (key : Str) (d : K), (∃ v, DumpXs.getDouble ofLong (.obj m) key d = .ok v) ∧
        (∀ x, m.lookup key = some x → DumpXs.number ofLong x ≠ none) ∨
      DumpXs.getDouble ofLong (.obj m) key d = .error .marleyError := by
    intro key d
    simp only [DumpXs.getDouble, hasKey, at?, mapFind_eq_lookup]
    rcases m.lookup key with _ | x
    · exact .inl ⟨⟨d, by simp⟩, by simp⟩
    · cases x <;> simp [Event.toDouble?, DumpXs.number]
  have hi : ∀ (key : Str) (d : Int), (∃ v, DumpXs.getInt (.obj m) key d = .ok v) ∧
        (∀ x, m.lookup key = some x → ∃ n, x = .int n) ∨
      DumpXs.getInt (.obj m) key d = .error .marleyError := by
    intro key d
    simp only [DumpXs.getInt, hasKey, at?, mapFind_eq_lookup]
    rcases m.lookup key with _ | x
    · exact .inl ⟨⟨d, by simp⟩, by simp⟩
    · cases x <;> simp [toLong?]
  rw [DumpXs.mardumpxs, if_neg hno, hc]
  dsimp only
  have key : DumpXs.dump num ofLong (.obj m) xs = .error .marleyError := by
    rw [DumpXs.dump]
    rcases hd "xsec_dump_KEmin".toList 0 with ⟨⟨v1, h1⟩, g1⟩ | h1
    swap
    · rw [h1]
    rw [h1]; dsimp only
    rcases hd "xsec_dump_KEmax".toList 100 with ⟨⟨v2, h2⟩, g2⟩ | h2
    swap
    · rw [h2]
    rw [h2]; dsimp only
    rcases hi "xsec_dump_steps".toList 10000 with ⟨⟨v3, h3⟩, g3⟩ | h3
    swap
    · rw [h3]
    rw [h3]; dsimp only
    rcases hi "xsec_dump_pdg".toList 12 with ⟨⟨v4, h4⟩, g4⟩ | h4
    swap
    · rw [h4]
    exfalso
    rcases hbad with ⟨x, h | h, hx⟩ | ⟨x, h | h, hx⟩
    · exact g1 x h hx
    · exact g2 x h hx
    · obtain ⟨n, hn⟩ := g3 x h; exact hx n hn
    · obtain ⟨n, hn⟩ := g4 x h; exact hx n hn
  rw [key]

/-- **C109** (nothing is overwritten).  With fewer than two arguments, or if the output file exists and the user does not
agree, nothing is written. -/
theorem C109_refused [Field K] (num : K → Str) (ofLong : Int → K) (config : Str → Res (JVal K × (Int → K → Res K)))
    (existing : Str → Option Str) (input : List Str) :
    (∀ args : List Str, args.length < 2 → DumpXs.mardumpxs num ofLong config existing input args = .usage) ∧
    ∀ (out name : Str) (more : List Str), existing out ≠ none → ¬ SaysYes input →
      DumpXs.mardumpxs num ofLong config existing input (out :: name :: more) = .aborted := by
  constructor
  · intro args h
    rcases args with _ | ⟨a, _ | ⟨b, l⟩⟩
    · rfl
    · rfl
    · simp only [List.length_cons] at h; omega
  · intro out name names h1 h2
    have h3 : promptYesNo input = false := by
      rw [← Bool.not_eq_true, promptYesNo_iff]
      exact h2
    rw [DumpXs.mardumpxs, if_pos ⟨Option.isSome_iff_ne_none.2 h1, h3⟩]

/-! ## Cases -/

/-- A configuration that asks for two energies up to 10 MeV; the cross section is a linear function. -/
def exDumpConfig : List (Str × JVal ℚ) :=
  [("xsec_dump_KEmax".toList, .int 10), ("xsec_dump_steps".toList, .int 2)]

example (num : ℚ → Str) : DumpXs.mardumpxs num (fun n => (n : ℚ)) (fun _ => .ok (.obj exDumpConfig, fun _ E => .ok (3 * E)))
    (fun _ => none) [] [['o'], ['c']] =
    .finished (DumpXs.line num 5 15 ++ DumpXs.line num 10 30) := by
  have hs : DumpXs.Gives (fun n => (n : ℚ)) exDumpConfig ⟨0, 10, 2, 12⟩ := by
    refine ⟨?_, ?_, ?_, ?_⟩
    · show (0 : ℚ) = 0; rfl
    · show some (((10 : Int)) : ℚ) = some 10; norm_num
    · show some (2 : Int) = some 2; rfl
    · show (12 : Int) = 12; rfl
  rw [C109_table_partial num _ _ _ _ _ _ _ exDumpConfig (fun _ E => .ok (3 * E)) ⟨0, 10, 2, 12⟩ (.inl rfl) rfl hs]
  have he : DumpXs.Settings.energies (⟨0, 10, 2, 12⟩ : DumpXs.Settings ℚ) = [5, 10] := by
    simp [DumpXs.Settings.energies, List.range_succ]; norm_num
  rw [he]
  simp only [DumpXs.table, Except.map, List.append_nil]
  norm_num

example (num : ℚ → Str) : DumpXs.mardumpxs num (fun n => (n : ℚ))
    (fun _ => .ok (.obj [("xsec_dump_steps".toList, .float (1 / 2))], fun _ E => .ok (3 * E))) (fun _ => none) []
    [['o'], ['c']] = .crashed .marleyError :=
  C109_settings num _ _ _ _ _ _ _ _ _ (.inl rfl) rfl (.inr ⟨.float (1 / 2), .inl rfl, by simp⟩)

/-- **C109 is violated** by numbers of steps that are no `int`: 2³² + 1 steps give a table with one line. -/
theorem C109_steps_violated (num : ℚ → Str) : DumpXs.mardumpxs num (fun n => (n : ℚ))
    (fun _ => .ok (.obj [("xsec_dump_steps".toList, .int 4294967297)], fun _ E => .ok (3 * E))) (fun _ => none) []
    [['o'], ['c']] = .finished (DumpXs.line num 100 300) := by
  have h1 : DumpXs.getDouble (fun n => (n : ℚ)) (.obj [("xsec_dump_steps".toList, .int 4294967297)])
    "xsec_dump_KEmin".toList 0 = .ok 0 := rfl
  have h2 : DumpXs.getDouble (fun n => (n : ℚ)) (.obj [("xsec_dump_steps".toList, .int 4294967297)])
    "xsec_dump_KEmax".toList 100 = .ok 100 := rfl
  have h3 : DumpXs.getInt (.obj [("xsec_dump_steps".toList, (.int 4294967297 : JVal ℚ))])
    "xsec_dump_steps".toList 10000 = .ok 1 := rfl
  have h4 : DumpXs.getInt (.obj [("xsec_dump_steps".toList, (.int 4294967297 : JVal ℚ))])
    "xsec_dump_pdg".toList 12 = .ok 12 := rfl
  have hno : ¬ (((none : Option Str)).isSome ∧ promptYesNo [] = false) := by simp
  rw [DumpXs.mardumpxs, if_neg hno]
  simp only [DumpXs.dump, h1, h2, h3, h4, dumpLoop_table]
  simp [DumpXs.table, Except.map]
  norm_num

end Marley.Props
