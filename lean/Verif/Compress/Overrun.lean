import Verif.Compress.PpmProps
import Verif.Compress.BitBufProps

/-!
# Data that overruns the bit buffer of the PPM compressor (C70)

The data was found by a program: each byte is the one whose part of the coder's range contains the middle, so the coder cannot decide any bit and counts them only.
-/

namespace Verif.Compress

/-- A dictionary of one level of size 0, made from data in which each byte occurs five times.  Of PpmCompressor.h 146-158. -/
def fives : List Level := [makeLevel 0 65536 [([], (List.range 256).map fun s => (s, 5))]]

/-- The bits that the coder gives for each symbol: PpmCompressor.h:146, 154-158. -/
def perSymbol (ls : List Level) : List Nat → Enc → List Nat → Except PErr (Enc × List (List Bool))
  | _, e, [] => .ok (e, [])
  | context, e, s :: data => match predict context (some s) ls with
    | .error x => .error x
    | .ok ps => match encodeAll e ps with
      | .error x => .error (.coder x)
      | .ok (e', bs) => match perSymbol ls (pushCtx (topSize ls) context s) e' data with
        | .error x => .error x
        | .ok (e'', r) => .ok (e'', bs :: r)

/-- Data of the witness for PpmCompressor.h 146-158. -/
def fivePart (s : Nat) : Part := ⟨5 * s, 5 * s + 5, 1281⟩

theorem fives_predict : ∀ s, s < 256 → predict [] (some s) fives = .ok [fivePart s] := by decide +kernel

theorem perSymbol_fives : ∀ (data : List Nat) (e e' : Enc) (bs : List Bool), (∀ s ∈ data, s < 256) → encodeAll e (data.map fivePart) = .ok (e', bs) →
    ∃ r, perSymbol fives [] e data = .ok (e', r) ∧ r.length = data.length ∧ r.flatten = bs := by
  intro data
  induction data with
  | nil => intro e e' bs _ h; injection h with h; injection h with h1 h2; subst h1 h2; exact ⟨[], rfl, rfl, rfl⟩
  | cons s data ih =>
    intro e e' bs hs h
    have hc : pushCtx (topSize fives) [] s = [] := rfl
    simp only [List.map_cons, encodeAll] at h
    cases h1 : encode e (fivePart s).lo (fivePart s).hi (fivePart s).scale with
    | error x => rw [h1] at h; cases h
    | ok q =>
      obtain ⟨e1, b1⟩ := q
      rw [h1] at h
      simp only [] at h
      cases h2 : encodeAll e1 (data.map fivePart) with
      | error x => rw [h2] at h; cases h
      | ok q2 =>
        obtain ⟨e2, b2⟩ := q2
        rw [h2] at h
        injection h with h; injection h with h3 h4; subst h3 h4
        obtain ⟨r, a1, a2, a3⟩ := ih e1 e2 b2 (fun s h => hs s (List.mem_cons_of_mem _ h)) h2
        refine ⟨b1 :: r, ?_, by rw [List.length_cons, List.length_cons, a2], by rw [List.flatten_cons, a3]⟩
        have hx : encodeAll e [fivePart s] = .ok (e1, b1) := by simp only [encodeAll, h1, List.append_nil]
        rw [perSymbol, fives_predict s (hs s List.mem_cons_self)]
        simp only [hx]
        rw [hc, a1]

theorem encodeAll_append : ∀ (ps qs : List Part) (e e' e'' : Enc) (bs cs : List Bool), encodeAll e ps = .ok (e', bs) → encodeAll e' qs = .ok (e'', cs) → encodeAll e (ps ++ qs) = .ok (e'', bs ++ cs) := by
  intro ps
  induction ps with
  | nil => intro qs e e' e'' bs cs h h2; injection h with h; injection h with h3 h4; subst h3 h4; exact h2
  | cons p ps ih =>
    intro qs e e' e'' bs cs h h2
    simp only [encodeAll, List.cons_append] at h ⊢
    cases h1 : encode e p.lo p.hi p.scale with
    | error x => rw [h1] at h; cases h
    | ok q =>
      obtain ⟨e1, b1⟩ := q
      rw [h1] at h
      simp only [] at h ⊢
      cases h5 : encodeAll e1 ps with
      | error x => rw [h5] at h; cases h
      | ok q2 =>
        obtain ⟨e2, b2⟩ := q2
        rw [h5] at h
        injection h with h; injection h with h3 h4; subst h3 h4
        rw [ih qs e1 e2 e'' b2 cs h5 h2]
        simp only [List.append_assoc]

/-- Data of the witness for PpmCompressor.h 146-158. -/
def mid0 : List Nat := [128, 25, 163, 96, 48, 166, 48, 138, 172, 160, 11, 79, 87, 203, 225, 113, 222, 162, 235, 249, 248, 71, 239, 221, 69, 104, 255, 6, 217, 180, 145, 193, 130, 44, 66, 124, 210, 140, 147, 203, 152, 145, 191, 211, 200, 2, 36, 167, 71, 75]

theorem mid0_spec : encodeAll ⟨0, 2147483647, 0⟩ (mid0.map fivePart) = .ok (⟨995332352, 2027922431, 399⟩, []) ∧ ∀ s ∈ mid0, s < 256 := by decide +kernel

/-- Data of the witness for PpmCompressor.h 146-158. -/
def mid1 : List Nat := [19, 116, 112, 208, 91, 246, 129, 164, 192, 238, 142, 225, 47, 11, 29, 92, 183, 255, 110, 201, 10, 114, 228, 93, 46, 113, 214, 88, 131, 70, 131, 54, 170, 168, 212, 244, 156, 92, 204, 49, 100, 197, 37, 236, 17, 200, 1, 113, 109, 204]

theorem mid1_spec : encodeAll ⟨995332352, 2027922431, 399⟩ (mid1.map fivePart) = .ok (⟨646198272, 1639215871, 799⟩, []) ∧ ∀ s ∈ mid1, s < 256 := by decide +kernel

/-- Data of the witness for PpmCompressor.h 146-158. -/
def mid2 : List Nat := [110, 78, 162, 30, 248, 9, 225, 239, 243, 32, 179, 157, 138, 91, 26, 223, 66, 207, 144, 119, 189, 165, 45, 146, 102, 130, 220, 110, 209, 223, 131, 66, 148, 129, 204, 9, 250, 134, 88, 113, 215, 199, 73, 250, 215, 208, 9, 119, 163, 171]

theorem mid2_spec : encodeAll ⟨646198272, 1639215871, 799⟩ (mid2.map fivePart) = .ok (⟨89850880, 1999769599, 1200⟩, []) ∧ ∀ s ∈ mid2, s < 256 := by decide +kernel

/-- Data of the witness for PpmCompressor.h 146-158. -/
def mid3 : List Nat := [131, 251, 82, 8, 72, 142, 43, 190, 195, 70, 92, 252, 38, 217, 156, 209, 120, 236, 245, 165, 44, 180, 192, 87, 112, 80, 24, 110, 243, 97, 151, 223, 47, 240, 149, 230, 91, 103, 105, 101, 35, 50, 67, 179, 66, 183, 176, 17, 109, 125]

theorem mid3_spec : encodeAll ⟨89850880, 1999769599, 1200⟩ (mid3.map fivePart) = .ok (⟨53532160, 1890247679, 1600⟩, []) ∧ ∀ s ∈ mid3, s < 256 := by decide +kernel

/-- Data of the witness for PpmCompressor.h 146-158. -/
def mid4 : List Nat := [142, 78, 181, 113, 143, 78, 2, 205, 129, 90, 31, 61, 187, 122, 210, 249, 247, 57, 180, 6, 64, 56, 30, 134, 250, 204, 101, 8, 115, 99, 179, 218, 27, 230, 72, 244, 222, 178, 194, 0, 120, 51, 7, 181, 242, 195, 227, 176, 182, 128]

theorem mid4_spec : encodeAll ⟨53532160, 1890247679, 1600⟩ (mid4.map fivePart) = .ok (⟨505495552, 1388655231, 1999⟩, []) ∧ ∀ s ∈ mid4, s < 256 := by decide +kernel

/-- Data of the witness for PpmCompressor.h 146-158. -/
def mid5 : List Nat := [164, 216, 156, 217, 206, 5, 215, 7, 241, 127, 199, 158, 97, 19, 162, 136, 190, 17, 102, 57, 177, 189, 212, 171, 118, 126, 132, 59, 120, 94, 123, 62, 196, 54, 1, 223, 183, 124, 77, 14, 77, 155, 136, 53, 30, 49, 70, 202, 106, 227]

theorem mid5_spec : encodeAll ⟨505495552, 1388655231, 1999⟩ (mid5.map fivePart) = .ok (⟨935132672, 1784440831, 2399⟩, []) ∧ ∀ s ∈ mid5, s < 256 := by decide +kernel

/-- Data of the witness for PpmCompressor.h 146-158. -/
def mid6 : List Nat := [41, 208, 39, 65, 194, 186, 228, 194, 134, 6, 212, 157, 7, 33, 106, 164, 4, 185, 226, 223, 23, 173, 203, 114, 152, 148, 138, 213, 95, 221, 78, 107, 241, 237, 106, 195, 179, 106, 179, 249, 245, 100, 187, 254, 73, 62, 68, 84, 63, 195]

theorem mid6_spec : encodeAll ⟨935132672, 1784440831, 2399⟩ (mid6.map fivePart) = .ok (⟨505373952, 1322130431, 2799⟩, []) ∧ ∀ s ∈ mid6, s < 256 := by decide +kernel

/-- Data of the witness for PpmCompressor.h 146-158. -/
def mid7 : List Nat := [178, 73, 54, 66, 153, 218, 7, 26, 218, 43, 13, 164, 131, 16, 67, 120, 181, 229, 238, 151, 196, 37, 132, 120, 99, 191, 47, 234, 226, 217, 102, 248, 122, 176, 192, 248, 169, 50, 179, 209, 34, 26, 216, 49, 123, 136, 59, 241, 87, 202]

theorem mid7_spec : encodeAll ⟨505373952, 1322130431, 2799⟩ (mid7.map fivePart) = .ok (⟨252968960, 1823866879, 3200⟩, []) ∧ ∀ s ∈ mid7, s < 256 := by decide +kernel

/-- Data of the witness for PpmCompressor.h 146-158. -/
def mid8 : List Nat := [133, 220, 159, 75, 224, 55, 235, 221, 255, 232, 6, 73, 177, 132, 195, 192, 203, 48, 135, 77, 243, 86, 124, 198, 120, 156, 104, 223, 103, 30, 51, 197, 255, 249, 169, 242, 249, 218, 17, 118, 228, 28, 190, 166, 125, 148, 220, 153, 137, 115]

theorem mid8_spec : encodeAll ⟨252968960, 1823866879, 3200⟩ (mid8.map fivePart) = .ok (⟨503734272, 1259077631, 3599⟩, []) ∧ ∀ s ∈ mid8, s < 256 := by decide +kernel

/-- Data of the witness for PpmCompressor.h 146-158. -/
def mid9 : List Nat := [193, 86, 104, 55, 169, 127, 97, 166, 207, 150, 164, 30, 203, 135, 49, 109, 28, 99, 96, 99, 194, 117, 69, 130, 124, 236, 20, 4, 98, 199, 142, 65, 84, 98, 5, 74, 204, 17, 9, 220, 34, 204, 73, 27, 216, 103, 108, 81, 255, 96]

theorem mid9_spec : encodeAll ⟨503734272, 1259077631, 3599⟩ (mid9.map fivePart) = .ok (⟨467312640, 1920095999, 4000⟩, []) ∧ ∀ s ∈ mid9, s < 256 := by decide +kernel

/-- Data of the witness for PpmCompressor.h 146-158. -/
def mid10 : List Nat := [106, 241, 255, 239, 233, 182, 79, 35, 20, 16, 248, 32, 216, 15, 248, 67, 236, 4, 12, 25, 5, 247, 200, 65, 33, 67, 84, 25, 12, 41, 230, 169, 188, 149, 152, 182, 175, 39, 215, 238, 196, 67, 147, 158, 133, 104, 188, 255, 132, 229]

theorem mid10_spec : encodeAll ⟨467312640, 1920095999, 4000⟩ (mid10.map fivePart) = .ok (⟨388945920, 1786040319, 4400⟩, []) ∧ ∀ s ∈ mid10, s < 256 := by decide +kernel

/-- Data of the witness for PpmCompressor.h 146-158. -/
def mid11 : List Nat := [125, 148, 46, 236, 8, 88, 36, 120, 106, 153, 116, 192, 249, 178, 30, 190, 43, 110, 30, 86, 38, 71, 182, 87, 145, 240, 158, 6, 232, 90, 55, 253, 16, 62, 107, 65, 192, 201, 34, 112, 106, 101, 135, 60, 119, 51, 249, 171, 198, 237]

theorem mid11_spec : encodeAll ⟨388945920, 1786040319, 4400⟩ (mid11.map fivePart) = .ok (⟨129856000, 1473407999, 4800⟩, []) ∧ ∀ s ∈ mid11, s < 256 := by decide +kernel

/-- Data of the witness for PpmCompressor.h 146-158. -/
def mid12 : List Nat := [179, 253, 54, 53, 11, 183, 4, 127, 178, 241, 181, 76, 176, 204, 92, 53, 212, 69, 203, 130, 200, 96, 208, 128, 31, 88, 17, 113, 168, 89, 123, 86, 207, 107, 99, 27, 50, 65, 197, 141, 148, 93, 207, 175, 58, 232, 185, 238, 178, 1]

theorem mid12_spec : encodeAll ⟨129856000, 1473407999, 4800⟩ (mid12.map fivePart) = .ok (⟨707479040, 1999539199, 5200⟩, []) ∧ ∀ s ∈ mid12, s < 256 := by decide +kernel

/-- Data of the witness for PpmCompressor.h 146-158. -/
def mid13 : List Nat := [72, 160, 65, 103, 212, 32, 102, 113, 230, 146, 155, 233, 233, 48, 14, 18, 198, 179, 152, 132, 1, 77, 206, 4, 50, 144, 107, 188, 77, 206, 125, 166, 155, 77, 205, 14, 171, 102, 37, 28, 204, 253, 68, 20, 60, 27, 89, 222, 172, 156]

theorem mid13_spec : encodeAll ⟨707479040, 1999539199, 5200⟩ (mid13.map fivePart) = .ok (⟨269946880, 1512483839, 5600⟩, []) ∧ ∀ s ∈ mid13, s < 256 := by decide +kernel

/-- Data of the witness for PpmCompressor.h 146-158. -/
def mid14 : List Nat := [165, 188, 102, 60, 146, 199, 166, 84, 111, 207, 24, 53, 122, 143, 240, 95, 153, 76, 156, 135, 128, 24, 200, 6, 200, 51, 99, 122, 158, 115, 15, 206, 97, 175, 93, 124, 48, 168, 154, 108, 222, 196, 54, 106, 194, 169, 83, 175, 62, 160]

theorem mid14_spec : encodeAll ⟨269946880, 1512483839, 5600⟩ (mid14.map fivePart) = .ok (⟨206725120, 1401644799, 6000⟩, []) ∧ ∀ s ∈ mid14, s < 256 := by decide +kernel

/-- Data of the witness for PpmCompressor.h 146-158. -/
def mid15 : List Nat := [185, 229, 84, 155, 166, 34, 148, 63, 140, 147, 246, 81, 66, 150, 129, 141, 239, 200, 14, 100, 119, 18, 62, 118, 251, 27, 149, 55, 216, 209, 236, 109, 235, 12, 40, 67, 236, 57, 200, 137, 196, 85, 156, 223, 235, 20, 134, 23, 4, 153]

theorem mid15_spec : encodeAll ⟨206725120, 1401644799, 6000⟩ (mid15.map fivePart) = .ok (⟨22376960, 1171502079, 6400⟩, []) ∧ ∀ s ∈ mid15, s < 256 := by decide +kernel

/-- Data of the witness for PpmCompressor.h 146-158. -/
def mid16 : List Nat := [234, 103, 141, 41, 10, 228, 233, 33, 188, 70, 239, 43, 83, 23, 241, 94, 167, 87, 134, 59, 126, 107, 220, 5, 4, 50, 31, 102, 215, 194, 148, 43, 69, 30, 92, 71, 6, 115, 195, 199, 153, 29, 226, 163, 23, 187, 142, 60, 17, 89]

theorem mid16_spec : encodeAll ⟨22376960, 1171502079, 6400⟩ (mid16.map fivePart) = .ok (⟨423584000, 1528670719, 6800⟩, []) ∧ ∀ s ∈ mid16, s < 256 := by decide +kernel

/-- Data of the witness for PpmCompressor.h 146-158. -/
def mid17 : List Nat := [150, 187, 49, 117, 33, 186, 34, 179, 181, 177, 137, 192, 112, 78, 213, 198, 168, 74, 120, 69, 195, 222, 62, 208, 81, 68, 64, 75, 67, 200, 133, 142, 62, 199, 18, 116, 253, 163, 207, 47, 112, 110, 16, 22, 92, 90, 52, 14, 159, 96]

theorem mid17_spec : encodeAll ⟨423584000, 1528670719, 6800⟩ (mid17.map fivePart) = .ok (⟨425984000, 1488721919, 7200⟩, []) ∧ ∀ s ∈ mid17, s < 256 := by decide +kernel

/-- Data of the witness for PpmCompressor.h 146-158. -/
def mid18 : List Nat := [156, 40, 166, 12, 84, 33, 103, 195, 127, 145, 98, 254, 162, 22, 2, 236, 149, 126, 223, 53, 144, 188, 94, 217, 180, 22, 223, 153, 130, 15, 235, 150, 131, 8, 10, 37, 171, 22, 235, 241, 105, 253, 224, 45, 174, 215, 241, 2, 246, 101]

theorem mid18_spec : encodeAll ⟨425984000, 1488721919, 7200⟩ (mid18.map fivePart) = .ok (⟨679980800, 1701982719, 7600⟩, []) ∧ ∀ s ∈ mid18, s < 256 := by decide +kernel

/-- Data of the witness for PpmCompressor.h 146-158. -/
def mid19 : List Nat := [98, 181, 221, 188, 219, 221, 194, 213, 83, 14, 42, 79, 55, 124, 78, 52, 76, 29, 85, 165, 93, 204, 30, 214, 39, 140, 125, 15, 168, 129, 178, 26, 76, 170, 141, 159, 220, 222, 52, 63, 192, 93, 89, 27, 78, 189, 101, 102, 206, 43]

theorem mid19_spec : encodeAll ⟨679980800, 1701982719, 7600⟩ (mid19.map fivePart) = .ok (⟨759875840, 1742709759, 8000⟩, []) ∧ ∀ s ∈ mid19, s < 256 := by decide +kernel

/-- Data of the witness for PpmCompressor.h 146-158. -/
def mid20 : List Nat := [81, 209, 81, 28, 210, 192, 59, 105, 198, 169, 90, 104, 32, 32, 187, 3, 30, 192, 27, 246, 223, 224, 19, 170, 119, 236, 247, 188, 98]

theorem mid20_spec : encodeAll ⟨759875840, 1742709759, 8000⟩ (mid20.map fivePart) = .ok (⟨121420800, 1082227199, 8232⟩, []) ∧ ∀ s ∈ mid20, s < 256 := by decide +kernel

/-- Data of the witness for PpmCompressor.h 146-158. -/
def middle : List Nat := mid0 ++ (mid1 ++ (mid2 ++ (mid3 ++ (mid4 ++ (mid5 ++ (mid6 ++ (mid7 ++ (mid8 ++ (mid9 ++ (mid10 ++ (mid11 ++ (mid12 ++ (mid13 ++ (mid14 ++ (mid15 ++ (mid16 ++ (mid17 ++ (mid18 ++ (mid19 ++ (mid20))))))))))))))))))))

theorem middle_lt : ∀ s ∈ middle, s < 256 := by
  unfold middle
  simp only [List.mem_append]
  rintro s (h | h | h | h | h | h | h | h | h | h | h | h | h | h | h | h | h | h | h | h | h)
  · exact mid0_spec.2 s h
  · exact mid1_spec.2 s h
  · exact mid2_spec.2 s h
  · exact mid3_spec.2 s h
  · exact mid4_spec.2 s h
  · exact mid5_spec.2 s h
  · exact mid6_spec.2 s h
  · exact mid7_spec.2 s h
  · exact mid8_spec.2 s h
  · exact mid9_spec.2 s h
  · exact mid10_spec.2 s h
  · exact mid11_spec.2 s h
  · exact mid12_spec.2 s h
  · exact mid13_spec.2 s h
  · exact mid14_spec.2 s h
  · exact mid15_spec.2 s h
  · exact mid16_spec.2 s h
  · exact mid17_spec.2 s h
  · exact mid18_spec.2 s h
  · exact mid19_spec.2 s h
  · exact mid20_spec.2 s h

theorem middle_spec : encodeAll Enc.init (middle.map fivePart) = .ok (⟨121420800, 1082227199, 8232⟩, []) := by
  unfold middle
  simp only [List.map_append]
  exact encodeAll_append _ _ _ _ _ [] [] mid0_spec.1 (encodeAll_append _ _ _ _ _ [] [] mid1_spec.1 (encodeAll_append _ _ _ _ _ [] [] mid2_spec.1 (encodeAll_append _ _ _ _ _ [] [] mid3_spec.1 (encodeAll_append _ _ _ _ _ [] [] mid4_spec.1 (encodeAll_append _ _ _ _ _ [] [] mid5_spec.1 (encodeAll_append _ _ _ _ _ [] [] mid6_spec.1 (encodeAll_append _ _ _ _ _ [] [] mid7_spec.1 (encodeAll_append _ _ _ _ _ [] [] mid8_spec.1 (encodeAll_append _ _ _ _ _ [] [] mid9_spec.1 (encodeAll_append _ _ _ _ _ [] [] mid10_spec.1 (encodeAll_append _ _ _ _ _ [] [] mid11_spec.1 (encodeAll_append _ _ _ _ _ [] [] mid12_spec.1 (encodeAll_append _ _ _ _ _ [] [] mid13_spec.1 (encodeAll_append _ _ _ _ _ [] [] mid14_spec.1 (encodeAll_append _ _ _ _ _ [] [] mid15_spec.1 (encodeAll_append _ _ _ _ _ [] [] mid16_spec.1 (encodeAll_append _ _ _ _ _ [] [] mid17_spec.1 (encodeAll_append _ _ _ _ _ [] [] mid18_spec.1 (encodeAll_append _ _ _ _ _ [] [] mid19_spec.1 (mid20_spec.1))))))))))))))))))))

/-- The bits for the byte after it: one zero, as many ones as were counted, and a few more.  For PpmCompressor.h 146-158. -/
def flood : List Bool := false :: (List.replicate 8232 true ++ [false, false, false, true, true, true, false])

theorem flood_general (u : Nat) : encode ⟨121420800, 1082227199, u⟩ 0 5 1281 = .ok (⟨1018953728, 1979010047, 0⟩, false :: (List.replicate u true ++ [false, false, false, true, true, true, false])) := by
  have e : encode ⟨121420800, 1082227199, u⟩ 0 5 1281 = encLoop (39 + 1) ⟨121420800, 125171019, u⟩ := by
    unfold encode
    rw [if_pos (by decide)]
    simp only []
    rw [if_neg (by decide)]
    rw [show w32 (121420800 + (1082227199 - 121420800 + 1) / 1281 * 0) = 121420800 by decide +kernel, show w32 (121420800 + (1082227199 - 121420800 + 1) / 1281 * 5 - 1) = 125171019 by decide +kernel]
    rfl
  have e2 : encLoop 39 ⟨shiftLow 121420800, shiftHigh 125171019, 0⟩ = .ok (⟨1018953728, 1979010047, 0⟩, [false, false, false, true, true, true, false]) := by decide +kernel
  have e3 : firstBit 121420800 = false := by decide +kernel
  have e4 : firstBit 125171019 = false := by decide +kernel
  rw [e, encLoop]
  simp only [e2, e3, e4, if_true, Bool.not_false]

theorem flood_spec : encodeAll ⟨121420800, 1082227199, 8232⟩ ([0].map fivePart) = .ok (⟨1018953728, 1979010047, 0⟩, flood) := by
  show encodeAll _ [⟨0, 5, 1281⟩] = _
  simp only [encodeAll]
  rw [flood_general]
  simp only [List.append_nil]
  rfl

theorem flatten_nil {l : List (List Bool)} (h : l.flatten = []) : l = List.replicate l.length [] := by
  apply List.eq_replicate_iff.2
  exact ⟨rfl, fun b hb => List.flatten_eq_nil_iff.1 h b hb⟩

theorem perSymbol_append : ∀ (d1 d2 : List Nat) (e e1 e2 : Enc) (r1 r2 : List (List Bool)), perSymbol fives [] e d1 = .ok (e1, r1) → perSymbol fives [] e1 d2 = .ok (e2, r2) →
    perSymbol fives [] e (d1 ++ d2) = .ok (e2, r1 ++ r2) := by
  intro d1
  induction d1 with
  | nil => intro d2 e e1 e2 r1 r2 h h2; injection h with h; injection h with h3 h4; subst h3 h4; exact h2
  | cons s d1 ih =>
    intro d2 e e1 e2 r1 r2 h h2
    have hc : pushCtx (topSize fives) [] s = [] := rfl
    rw [List.cons_append, perSymbol]
    rw [perSymbol] at h
    cases h1 : predict [] (some s) fives with
    | error x => rw [h1] at h; cases h
    | ok ps =>
      rw [h1] at h
      simp only [] at h ⊢
      cases h3 : encodeAll e ps with
      | error x => rw [h3] at h; cases h
      | ok q =>
        obtain ⟨e3, b3⟩ := q
        rw [h3] at h
        simp only [hc] at h ⊢
        cases h4 : perSymbol fives [] e3 d1 with
        | error x => rw [h4] at h; cases h
        | ok q2 =>
          obtain ⟨e4, r4⟩ := q2
          rw [h4] at h
          injection h with h; injection h with h5 h6; subst h5 h6
          rw [ih d2 e3 e4 e2 r4 r2 h4 h2]
          rfl

/-- There is data for which the compressor, with its buffer of 1024 bytes and its room of 32 bits, loses bits: with a consumer that takes everything, what it gets is not what the coder gave. -/
theorem compressor_overrun_violated : ∃ (data : List Nat) (e : Enc) (syms : List (List Bool)) (s' : Buf), (∀ s ∈ data, s < 256) ∧ perSymbol fives [] Enc.init data = .ok (e, syms) ∧
    encodeSyms 1024 32 syms [] (Buf.init fun _ => false) = some ([], s', []) ∧ (s'.endOfData 1024 [1024, 1024]).2.2 = some true ∧ (s'.endOfData 1024 [1024, 1024]).2.1 ≠ Spec.padded syms.flatten := by
  obtain ⟨r1, a1, a2, a3⟩ := perSymbol_fives middle _ _ _ middle_lt middle_spec
  obtain ⟨r2, b1, b2, b3⟩ := perSymbol_fives [0] _ _ _ (by decide) flood_spec
  have hr1 := flatten_nil a3
  have hr2 : r2 = [flood] := by
    match r2, b2, b3 with
    | [x], _, h => rw [← h]; simp
  have hl : flood.length = 8240 := by
    unfold flood
    rw [List.length_cons, List.length_append, List.length_replicate]; rfl
  have hb : flood[8 * 1024]? = some true := by
    unfold flood
    rw [show 8 * 1024 = 8191 + 1 from rfl, List.getElem?_cons_succ, List.getElem?_append_left (by rw [List.length_replicate]; decide), List.getElem?_replicate, if_pos (by decide)]
  obtain ⟨s', c1, c2, c3⟩ := bits_overrun_violated 1024 32 (by decide) (by decide) (by decide) flood (by rw [hl]; decide) (by rw [hl]; decide) hb r1.length
  refine ⟨middle ++ [0], _, _, s', ?_, perSymbol_append _ _ _ _ _ _ _ a1 b1, ?_, c2, ?_⟩
  · intro s hs
    rcases List.mem_append.1 hs with h | h
    · exact middle_lt s h
    · rw [List.mem_singleton.1 h]; decide
  · rw [hr1, hr2]; exact c1
  · rw [List.flatten_append, a3, hr2]
    simpa using c3

end Verif.Compress
