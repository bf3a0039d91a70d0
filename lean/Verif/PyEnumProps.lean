import Verif.PyEnumModel
import Verif.LogNormalFnProps

/-!
# C86: parameters keep their meaning on the way to the library
-/

namespace Slat.Py

open LogNormalFn (MType SType)

/-- The statistic that a constant's name stands for (/repo/src/pyslat.py:110-128). -/
noncomputable def Spec.reported (name : String) (d : LogNormalDist) : Option Dbl :=
  [("MEAN_X", d.getMean), ("MEDIAN_X", d.getMedian), ("MEAN_LN_X", d.getMuLn), ("SD_X", d.getSigma),
    ("SD_LN_X", d.getSigmaLn)].lookup name

/-- **C86.** A probabilistic function made from two constants of the interface reports the values of its two functions under the
names of the constants; not for `SD_X` with another than `MEAN_X`. -/
theorem reports_named_partial {D : Type} (mn sn : String) (mz sz : ℤ) (m s : ℝ) (hm : 0 < m) (hs : 0 ≤ s)
    (n : ℕ) (h1 : constant muNames mn = some mz) (h2 : constant sdNames sn = some sz)
    (h : sn = "SD_X" → mn = "MEAN_X") :
    ∃ d, (distributionOf (.num (.int mz) : Arg D) (.num (.int sz)) (.fin m) (.fin s) (n + 4)) = .ok (some d) ∧
      Spec.reported mn d = some (.fin m) ∧ Spec.reported sn d = some (.fin s) := by
  obtain ⟨⟨d1, e1, e2, e3⟩, h2', h3', h4'⟩ := LogNormalFn.reports_supplied_partial m s n
  obtain ⟨d2, f1, f2, f3⟩ := h2' hm
  obtain ⟨d3, g1, g2, g3⟩ := h3' hm
  obtain ⟨d4, k1, k2, k3⟩ := h4' hm hs
  have ha : mn = "MEAN_X" ∧ mz = 0 ∨ mn = "MEDIAN_X" ∧ mz = 1 ∨ mn = "MEAN_LN_X" ∧ mz = 2 := by
    by_cases c1 : mn = "MEAN_X"
    · subst c1; exact .inl ⟨rfl, (Option.some.inj h1).symm⟩
    by_cases c2 : mn = "MEDIAN_X"
    · subst c2; exact .inr (.inl ⟨rfl, (Option.some.inj h1).symm⟩)
    by_cases c3 : mn = "MEAN_LN_X"
    · subst c3; exact .inr (.inr ⟨rfl, (Option.some.inj h1).symm⟩)
    · simp [constant, muNames, List.findIdx?_cons, Ne.symm c1, Ne.symm c2, Ne.symm c3] at h1
  have hb : sn = "SD_X" ∧ sz = 0 ∨ sn = "SD_LN_X" ∧ sz = 1 := by
    by_cases c1 : sn = "SD_X"
    · subst c1; exact .inl ⟨rfl, (Option.some.inj h2).symm⟩
    by_cases c2 : sn = "SD_LN_X"
    · subst c2; exact .inr ⟨rfl, (Option.some.inj h2).symm⟩
    · simp [constant, sdNames, List.findIdx?_cons, Ne.symm c1, Ne.symm c2] at h2
  rcases ha with ⟨rfl, rfl⟩ | ⟨rfl, rfl⟩ | ⟨rfl, rfl⟩ <;> rcases hb with ⟨rfl, rfl⟩ | ⟨rfl, rfl⟩
  · exact ⟨d4, congrArg Out.ok k1, congrArg some k2, congrArg some k3⟩
  · exact ⟨d2, congrArg Out.ok f1, congrArg some f2, congrArg some f3⟩
  · simp at h
  · exact ⟨d3, congrArg Out.ok g1, congrArg some g2, congrArg some g3⟩
  · simp at h
  · exact ⟨d1, congrArg Out.ok e1, congrArg some e2, congrArg some e3⟩

/-- **C86.** Any other integer as a type ends the process, instead of raising. -/
theorem invalid_type_fails {D : Type} (z sz : ℤ) (hz : -2 ^ 31 ≤ z ∧ z < 2 ^ 31)
    (hs : constant sdNames "SD_X" = some sz ∨ constant sdNames "SD_LN_X" = some sz)
    (h : ∀ mn, constant muNames mn ≠ some z) :
    makeTypes (.num (.int z) : Arg D) (.num (.int sz)) = .ends := by
  have h1 : toEnum (.num (.int z) : Arg D) = .ok z := by
    have : (convert .int (.num (.int z)) : Except Err (CVal D)) = .ok (.int z) := if_pos hz
    simp only [toEnum, this]
  have h2 : muSwitch z = .invalid := by
    simp only [muSwitch, (h _).symm, if_false]
  have hb : sz = 0 ∨ sz = 1 := by
    rcases hs with hs | hs
    · exact .inl (Option.some.inj hs).symm
    · exact .inr (Option.some.inj hs).symm
  rcases hb with rfl | rfl <;> simp only [makeTypes, h1, Out.then] <;> (show Out.ofLib _ = _) <;> rw [h2] <;> rfl

/-- A median of 2 and a dispersion of 1/2. -/
example : ∃ d, distributionOf (.num (.int 1) : Arg ℕ) (.num (.int 1)) (.fin 2) (.fin (1 / 2)) 4 = .ok (some d) ∧
    d.getMedian = .fin 2 ∧ d.getSigmaLn = .fin (1 / 2) := by
  obtain ⟨d, h1, h2, h3⟩ := reports_named_partial (D := ℕ) "MEDIAN_X" "SD_LN_X" 1 1 2 (1 / 2) (by norm_num)
    (by norm_num) 0 rfl rfl (by simp)
  exact ⟨d, h1, Option.some.inj h2, Option.some.inj h3⟩

/-- The type 7. -/
example : makeTypes (.num (.int 7) : Arg ℕ) (.num (.int 1)) = .ends := by
  refine invalid_type_fails 7 1 (by norm_num) (.inr rfl) ?_
  intro mn h
  simp only [constant, Option.map_eq_some_iff] at h
  obtain ⟨i, hi, h7⟩ := h
  have := (List.findIdx?_eq_some_iff_getElem.1 hi).1
  simp only [muNames, List.length_cons, List.length_nil] at this
  simp only [Int.ofNat_eq_natCast] at h7
  omega

end Slat.Py
