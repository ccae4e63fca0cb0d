import Verif.Spec.Instrs
/-!
The instruction table of the program and that of the standard hold the same entries.  Comparing every entry with every
other takes the kernel minutes, so the places of the entries are given.
-/
namespace Verif
open Spec
namespace InstrTable

/-- For every entry of the table of the program, its place in the table of the standard. -/
def toSpec : List Nat :=
  [0, 1, 2, 3, 4, 5, 6, 7, 11, 12, 19, 20, 21, 22, 23, 24, 25, 26, 27, 28, 29, 30, 31, 32, 33, 34, 35, 36, 37, 38,
   39, 40, 41, 42, 43, 48, 49, 50, 51, 52, 53, 54, 55, 56, 57, 58, 59, 60, 61, 62, 63, 64, 65, 66, 67, 68, 69, 70,
   71, 72, 73, 74, 75, 76, 77, 78, 79, 80, 81, 82, 83, 84, 85, 86, 87, 88, 89, 90, 91, 92, 93, 94, 95, 96, 97, 98,
   99, 100, 101, 102, 103, 104, 105, 106, 107, 108, 109, 110, 111, 112, 113, 114, 115, 116, 117, 118, 119, 120, 121,
   122, 123, 124, 125, 126, 127, 128, 129, 130, 131, 132, 133, 134, 135, 136, 137, 138, 139, 140, 141, 142, 143,
   144, 145, 146, 147, 148, 149, 150, 151, 152, 153, 154, 155, 156, 157, 158, 159, 160, 161, 162, 163, 164, 165,
   166, 167, 168, 169, 170, 171, 172, 173, 174, 175, 176, 177, 178, 179, 8, 9, 10, 180, 181, 182, 183, 184, 185,
   186, 187, 44, 45, 46, 47, 13, 14, 15, 16, 17, 18, 188, 189, 190, 191, 192, 193, 194, 195, 196, 197, 198, 199,
   200, 201, 202, 203, 204, 205, 206, 207, 208, 209, 210, 211, 212, 213, 214, 215, 216, 217, 218, 219, 220, 221,
   222, 223, 224, 225, 226, 227, 228, 229, 230, 231, 232, 233, 234, 235, 236, 237, 238, 239, 240, 241, 242, 243,
   244, 245, 246, 247, 248, 249, 250, 251, 252, 253, 254, 255, 256, 257, 258, 259, 260, 261, 262, 263, 264, 271,
   272, 273, 274, 275, 276, 277, 278, 279, 280, 281, 282, 283, 284, 285, 286, 287, 288, 289, 290, 291, 379, 292,
   293, 299, 300, 386, 387, 388, 389, 294, 295, 296, 297, 357, 358, 298, 359, 360, 390, 391, 367, 368, 369, 370,
   392, 361, 380, 381, 382, 383, 301, 302, 384, 303, 304, 310, 311, 312, 313, 314, 315, 305, 306, 307, 308, 362,
   363, 309, 364, 365, 393, 320, 371, 372, 373, 374, 366, 316, 317, 318, 319, 321, 322, 323, 324, 330, 331, 332,
   333, 325, 326, 327, 328, 329, 338, 375, 376, 377, 378, 385, 334, 335, 336, 337, 339, 340, 341, 342, 348, 349,
   350, 351, 343, 344, 345, 346, 347, 356, 265, 266, 267, 268, 269, 270, 352, 353, 354, 355, 394, 395, 396, 397,
   398, 399, 400, 401, 402, 403, 404, 405, 406, 407, 408, 409, 410, 411, 412, 413, 414, 415, 416, 417, 418, 419,
   420, 421, 422, 423]

/-- For every entry of the table of the standard, its place in the table of the program. -/
def fromSpec : List Nat :=
  [0, 1, 2, 3, 4, 5, 6, 7, 167, 168, 169, 8, 9, 182, 183, 184, 185, 186, 187, 10, 11, 12, 13, 14, 15, 16, 17, 18,
   19, 20, 21, 22, 23, 24, 25, 26, 27, 28, 29, 30, 31, 32, 33, 34, 178, 179, 180, 181, 35, 36, 37, 38, 39, 40, 41,
   42, 43, 44, 45, 46, 47, 48, 49, 50, 51, 52, 53, 54, 55, 56, 57, 58, 59, 60, 61, 62, 63, 64, 65, 66, 67, 68, 69,
   70, 71, 72, 73, 74, 75, 76, 77, 78, 79, 80, 81, 82, 83, 84, 85, 86, 87, 88, 89, 90, 91, 92, 93, 94, 95, 96, 97,
   98, 99, 100, 101, 102, 103, 104, 105, 106, 107, 108, 109, 110, 111, 112, 113, 114, 115, 116, 117, 118, 119, 120,
   121, 122, 123, 124, 125, 126, 127, 128, 129, 130, 131, 132, 133, 134, 135, 136, 137, 138, 139, 140, 141, 142,
   143, 144, 145, 146, 147, 148, 149, 150, 151, 152, 153, 154, 155, 156, 157, 158, 159, 160, 161, 162, 163, 164,
   165, 166, 170, 171, 172, 173, 174, 175, 176, 177, 188, 189, 190, 191, 192, 193, 194, 195, 196, 197, 198, 199,
   200, 201, 202, 203, 204, 205, 206, 207, 208, 209, 210, 211, 212, 213, 214, 215, 216, 217, 218, 219, 220, 221,
   222, 223, 224, 225, 226, 227, 228, 229, 230, 231, 232, 233, 234, 235, 236, 237, 238, 239, 240, 241, 242, 243,
   244, 245, 246, 247, 248, 249, 250, 251, 252, 253, 254, 255, 256, 257, 258, 259, 260, 261, 262, 263, 264, 384,
   385, 386, 387, 388, 389, 265, 266, 267, 268, 269, 270, 271, 272, 273, 274, 275, 276, 277, 278, 279, 280, 281,
   282, 283, 284, 285, 287, 288, 295, 296, 297, 298, 301, 289, 290, 316, 317, 319, 320, 327, 328, 329, 330, 333,
   321, 322, 323, 324, 325, 326, 343, 344, 345, 346, 337, 347, 348, 349, 350, 355, 356, 357, 358, 359, 351, 352,
   353, 354, 366, 367, 368, 369, 360, 370, 371, 372, 373, 378, 379, 380, 381, 382, 374, 375, 376, 377, 390, 391,
   392, 393, 383, 299, 300, 302, 303, 311, 331, 332, 334, 335, 342, 306, 307, 308, 309, 338, 339, 340, 341, 361,
   362, 363, 364, 286, 312, 313, 314, 315, 318, 365, 291, 292, 293, 294, 304, 305, 310, 336, 394, 395, 396, 397,
   398, 399, 400, 401, 402, 403, 404, 405, 406, 407, 408, 409, 410, 411, 412, 413, 414, 415, 416, 417, 418, 419,
   420, 421, 422, 423]

/-- The places of the entries of the table of the program, sorted by name. -/
def byName : List Nat :=
  [0, 61, 66, 64, 65, 63, 62, 67, 72, 70, 71, 69, 68, 40, 41, 84, 51, 52, 102, 1, 2, 109, 116, 119, 121, 120, 118,
   110, 117, 123, 130, 133, 135, 134, 132, 124, 131, 76, 83, 73, 74, 39, 78, 86, 77, 85, 94, 101, 91, 92, 50, 96,
   104, 95, 103, 268, 111, 12, 115, 253, 258, 256, 257, 255, 254, 125, 13, 129, 259, 264, 262, 263, 261, 260, 233,
   234, 48, 49, 44, 45, 46, 47, 10, 42, 43, 89, 90, 243, 244, 59, 60, 55, 56, 57, 58, 11, 53, 54, 107, 108, 384,
   385, 223, 224, 169, 167, 266, 265, 269, 179, 183, 37, 112, 26, 113, 394, 397, 400, 402, 401, 399, 395, 398, 38,
   126, 27, 127, 405, 408, 411, 413, 412, 410, 406, 409, 316, 330, 337, 317, 327, 333, 35, 79, 80, 81, 82, 87, 88,
   24, 347, 358, 360, 348, 355, 359, 36, 97, 98, 99, 100, 105, 106, 25, 370, 381, 383, 371, 378, 382, 284, 298, 285,
   295, 301, 3, 4, 5, 8, 9, 188, 291, 404, 403, 396, 304, 415, 414, 407, 6, 7, 241, 242, 237, 238, 239, 240, 235,
   236, 75, 28, 251, 252, 247, 248, 249, 250, 245, 246, 93, 30, 389, 387, 388, 386, 231, 232, 227, 228, 229, 230,
   225, 226, 184, 187, 185, 182, 186, 200, 199, 114, 292, 207, 293, 128, 305, 208, 310, 340, 341, 338, 339, 328,
   329, 204, 14, 15, 29, 363, 364, 361, 362, 356, 357, 205, 18, 19, 31, 32, 379, 380, 206, 308, 309, 306, 307, 296,
   297, 203, 180, 181, 34, 178, 33, 168, 267, 122, 136, 342, 16, 17, 137, 20, 21, 22, 23, 311, 286, 294, 336, 320,
   162, 350, 164, 373, 288, 201, 202, 271, 152, 319, 163, 349, 165, 166, 372, 287, 270, 189, 190, 157, 331, 332,
   334, 335, 138, 139, 140, 141, 144, 145, 146, 147, 299, 300, 302, 303, 191, 192, 193, 194, 272, 142, 143, 273,
   274, 280, 275, 281, 195, 276, 148, 149, 150, 151, 153, 154, 155, 156, 365, 196, 197, 198, 277, 278, 279, 219,
   220, 221, 222, 214, 215, 216, 217, 218, 211, 160, 161, 318, 158, 170, 171, 172, 173, 159, 174, 175, 176, 177,
   212, 213, 321, 322, 209, 210, 289, 290, 418, 419, 282, 283, 416, 417, 323, 325, 343, 345, 351, 353, 366, 368,
   374, 376, 390, 392, 422, 423, 324, 326, 344, 346, 352, 354, 367, 369, 375, 377, 391, 393, 420, 421, 312, 313,
   314, 315]

/-- For every entry of the table of the program, its place in that order. -/
def rankOf : List Nat :=
  [0, 19, 20, 174, 175, 176, 188, 189, 177, 178, 82, 95, 57, 66, 244, 245, 278, 279, 254, 255, 281, 282, 283, 284,
   148, 162, 113, 125, 199, 246, 209, 256, 257, 272, 270, 141, 155, 111, 123, 41, 13, 14, 83, 84, 78, 79, 80, 81,
   76, 77, 50, 16, 17, 96, 97, 91, 92, 93, 94, 89, 90, 1, 6, 5, 3, 4, 2, 7, 12, 11, 9, 10, 8, 39, 40, 198, 37, 44,
   42, 142, 143, 144, 145, 38, 15, 45, 43, 146, 147, 85, 86, 48, 49, 208, 46, 53, 51, 156, 157, 158, 159, 47, 18,
   54, 52, 160, 161, 98, 99, 21, 27, 56, 112, 114, 229, 58, 22, 28, 26, 23, 25, 24, 275, 29, 35, 65, 124, 126, 233,
   67, 30, 36, 34, 31, 33, 32, 276, 280, 314, 315, 316, 317, 331, 332, 318, 319, 320, 321, 340, 341, 342, 343, 298,
   344, 345, 346, 347, 309, 368, 373, 365, 366, 290, 300, 292, 302, 303, 105, 273, 104, 369, 370, 371, 372, 374,
   375, 376, 377, 271, 109, 268, 269, 225, 110, 222, 224, 226, 223, 179, 307, 308, 326, 327, 328, 329, 338, 349,
   350, 351, 228, 227, 295, 296, 267, 243, 253, 260, 231, 235, 382, 383, 364, 378, 379, 359, 360, 361, 362, 363,
   355, 356, 357, 358, 102, 103, 220, 221, 216, 217, 218, 219, 214, 215, 74, 75, 196, 197, 192, 193, 194, 195, 190,
   191, 87, 88, 206, 207, 202, 203, 204, 205, 200, 201, 59, 64, 63, 61, 62, 60, 68, 73, 72, 70, 71, 69, 107, 106,
   274, 55, 108, 306, 297, 330, 333, 334, 336, 339, 352, 353, 354, 335, 337, 388, 389, 169, 171, 286, 305, 294, 384,
   385, 180, 230, 232, 287, 172, 265, 266, 170, 322, 323, 173, 324, 325, 184, 234, 263, 264, 261, 262, 236, 285,
   420, 421, 422, 423, 135, 138, 367, 299, 289, 380, 381, 392, 406, 393, 407, 139, 241, 242, 136, 310, 311, 140,
   312, 313, 288, 137, 239, 240, 237, 238, 277, 394, 408, 395, 409, 149, 152, 301, 291, 396, 410, 397, 411, 153,
   251, 252, 150, 154, 151, 249, 250, 247, 248, 348, 398, 412, 399, 413, 163, 166, 304, 293, 400, 414, 401, 415,
   167, 258, 259, 164, 168, 165, 100, 101, 213, 211, 212, 210, 402, 416, 403, 417, 115, 121, 183, 116, 122, 120,
   117, 119, 118, 182, 181, 127, 133, 187, 128, 134, 132, 129, 131, 130, 186, 185, 390, 391, 386, 387, 418, 419,
   404, 405]

/-- A number that tells texts apart, in the order of their length and then of their characters. -/
def code (t : Text) : Nat := t.foldl (fun a c => a * 128 + c.toNat) 0

/-- An entry of the table of the program that is an instruction of the standard. -/
def same (m : InstrMeta) (e : Instr) : Bool :=
  m.name == e.name && m.params == e.params && m.results == e.results && m.binOp == opcodeText e.opcode

/-- Both lists have the same length, and the elements at the given places of the second are related to those of the
first. -/
def matched (p : α → β → Bool) : List α → List Nat → List β → Bool
  | [], [], _ => true
  | a :: as, i :: is, bs => (bs[i]?.any (p a)) && matched p as is bs
  | _, _, _ => false

/-- Strictly increasing. -/
def increasing : List Nat → Bool
  | a :: b :: l => Nat.blt a b && increasing (b :: l)
  | _ => true

theorem sound : matched same instrMetas toSpec instrTable = true := by decide +kernel

theorem complete : matched (fun e m => same m e) instrTable fromSpec instrMetas = true := by decide +kernel

theorem opcodes_increase : increasing (instrMetas.map fun m => code m.binOp) = true := by decide +kernel

/-- A number that tells the entries apart: by their names, `select` at place 1 (its first opcode) before the other. -/
def entryCode (i : Nat) : Nat := 2 * code ((instrMetas[i]?.map (·.name)).getD []) + if i = 1 then 0 else 1

theorem byName_increase : increasing (byName.map entryCode) = true := by decide +kernel

theorem rankOf_ok : matched (fun i j => i == j) (List.range 424) rankOf byName = true := by decide +kernel

theorem matched_spec {p : α → β → Bool} : ∀ {as : List α} {is : List Nat} {bs : List β}, matched p as is bs = true →
    ∀ (k : Nat) (a : α), as[k]? = some a → ∃ (i : Nat) (b : β), is[k]? = some i ∧ bs[i]? = some b ∧ p a b = true
  | [], _, _, _, k, a, h => by simp at h
  | x :: as, [], bs, h, _, _, _ => by simp [matched] at h
  | x :: as, i :: is, bs, h, k, a, hk => by
    simp only [matched, Bool.and_eq_true] at h
    cases k with
    | zero =>
      simp only [List.getElem?_cons_zero, Option.some.injEq] at hk
      subst hk
      obtain ⟨b, hb, hp⟩ := Option.any_eq_true_iff_get _ _ |>.mp h.1 |> fun ⟨h1, h2⟩ => (⟨_, Option.some_get h1 |>.symm, h2⟩ : ∃ b, bs[i]? = some b ∧ p x b = true)
      exact ⟨i, b, rfl, hb, hp⟩
    | succ k => exact matched_spec h.2 k a hk

theorem increasing_pairwise : ∀ {l : List Nat}, increasing l = true → l.Pairwise (· < ·)
  | [], _ => .nil
  | [a], _ => by simp
  | a :: b :: l, h => by
    simp only [increasing, Bool.and_eq_true] at h
    have ih := increasing_pairwise h.2
    have hab : a < b := by have := h.1; simp [Nat.blt] at this; omega
    refine List.pairwise_cons.mpr ⟨fun x hx => ?_, ih⟩
    rcases List.mem_cons.mp hx with rfl | hx
    · exact hab
    · exact Nat.lt_trans hab ((List.pairwise_cons.mp ih).1 x hx)

theorem metas_length : instrMetas.length = 424 := by decide +kernel

/-- Entries of the same name are one entry, but for `select`. -/
theorem name_unique {i j : Nat} {m m' : InstrMeta} (hi : instrMetas[i]? = some m) (hj : instrMetas[j]? = some m')
    (h : m.name = m'.name) : i = j ∨ i = 1 ∨ j = 1 := by
  have hlt : ∀ {k : Nat} {m : InstrMeta}, instrMetas[k]? = some m → k < 424 := fun hk => by
    have := (List.getElem?_eq_some_iff.mp hk).1; rwa [metas_length] at this
  obtain ⟨ri, i', hr1, hr2, hr3⟩ := matched_spec rankOf_ok i i (by simp [hlt hi])
  obtain ⟨rj, j', hs1, hs2, hs3⟩ := matched_spec rankOf_ok j j (by simp [hlt hj])
  have hr3 := beq_iff_eq.mp hr3
  have hs3 := beq_iff_eq.mp hs3
  subst hr3 hs3
  by_cases hi1 : i = 1
  · exact .inr (.inl hi1)
  by_cases hj1 : j = 1
  · exact .inr (.inr hj1)
  have he : entryCode i = entryCode j := by simp [entryCode, hi, hj, h, hi1, hj1]
  have hp := increasing_pairwise byName_increase
  have g1 : (byName.map entryCode)[ri]? = some (entryCode i) := by simp [hr2]
  have g2 : (byName.map entryCode)[rj]? = some (entryCode j) := by simp [hs2]
  rcases Nat.lt_trichotomy ri rj with hlt | heq | hlt
  · have := List.pairwise_iff_getElem.mp hp ri rj (List.getElem?_eq_some_iff.mp g1).1 (List.getElem?_eq_some_iff.mp g2).1 hlt
    rw [(List.getElem?_eq_some_iff.mp g1).2, (List.getElem?_eq_some_iff.mp g2).2] at this
    omega
  · subst heq; rw [hr2] at hs2; cases hs2; exact .inl rfl
  · have := List.pairwise_iff_getElem.mp hp rj ri (List.getElem?_eq_some_iff.mp g2).1 (List.getElem?_eq_some_iff.mp g1).1 hlt
    rw [(List.getElem?_eq_some_iff.mp g1).2, (List.getElem?_eq_some_iff.mp g2).2] at this
    omega

end InstrTable

theorem instrMeta_sound {name : Text} {m : InstrMeta} (h : instrMeta name = some m) : m.name = name ∧
    ∃ e ∈ instrTable, e.name = name ∧ e.params = m.params ∧ e.results = m.results ∧ opcodeText e.opcode = m.binOp := by
  unfold instrMeta at h
  have hm := List.mem_reverse.mp (List.mem_of_find?_eq_some h)
  have hn : m.name = name := by simpa using List.find?_some h
  obtain ⟨k, hk⟩ := List.getElem?_of_mem hm
  obtain ⟨i, e, _, he, hs⟩ := InstrTable.matched_spec InstrTable.sound k m hk
  simp only [InstrTable.same, Bool.and_eq_true, beq_iff_eq] at hs
  exact ⟨hn, e, List.mem_of_getElem? he, by rw [← hn, hs.1.1.1], hs.1.1.2.symm, hs.1.2.symm, hs.2.symm⟩

theorem instrMeta_complete {e : Instr} (he : e ∈ instrTable) (hn : e.name ≠ t!"select") : ∃ m, instrMeta e.name = some m ∧
    e.params = m.params ∧ e.results = m.results ∧ opcodeText e.opcode = m.binOp := by
  obtain ⟨k, hk⟩ := List.getElem?_of_mem he
  obtain ⟨i, m, _, hm, hs⟩ := InstrTable.matched_spec InstrTable.complete k e hk
  simp only [InstrTable.same, Bool.and_eq_true, beq_iff_eq] at hs
  have hsome : (instrMetas.reverse.find? fun m => m.name == e.name).isSome := by
    rw [List.find?_isSome]
    exact ⟨m, by simpa using List.mem_of_getElem? hm, by simp [hs.1.1.1]⟩
  obtain ⟨m', hm'⟩ := Option.isSome_iff_exists.mp hsome
  have hn' : m'.name = e.name := by simpa using List.find?_some hm'
  obtain ⟨j, hj⟩ := List.getElem?_of_mem (List.mem_reverse.mp (List.mem_of_find?_eq_some hm'))
  have h1 : ∀ m, instrMetas[1]? = some m → m.name = t!"select" := by
    intro m h; simp only [instrMetas, InstrTable.part0] at h; cases h; rfl
  have hij : i = j := by
    rcases InstrTable.name_unique hm hj (by rw [hs.1.1.1, hn']) with h | h | h
    · exact h
    · subst h; exact absurd (by rw [← hs.1.1.1, h1 m hm]) hn
    · subst h; exact absurd (by rw [← hn', h1 m' hj]) hn
  subst hij
  rw [hm] at hj; cases hj
  exact ⟨m, hm', hs.1.1.2.symm, hs.1.2.symm, hs.2.symm⟩

theorem instrMeta_found {e : Instr} (he : e ∈ instrTable) : ∃ m, instrMeta e.name = some m ∧
    m.params = e.params ∧ m.results = e.results ∧
    (m.binOp = opcodeText e.opcode ∨ e.name = t!"select" ∧ m.binOp = opcodeText [0x1C]) := by
  by_cases hn : e.name = t!"select"
  · have h1 : ∀ e ∈ instrTable.filter (fun e => e.name == t!"select"),
        e.params = [.generic, .generic, .val .i32] ∧ e.results = [.generic] := by decide +kernel
    have h2 : (instrMeta t!"select").any (fun m => m.params == [.generic, .generic, .val .i32] && m.results == [.generic] &&
        m.binOp == opcodeText [0x1C]) = true := by decide +kernel
    obtain ⟨m, hm⟩ : ∃ m, instrMeta t!"select" = some m := by
      cases h : instrMeta t!"select" with
      | none => rw [h] at h2; simp at h2
      | some m => exact ⟨m, rfl⟩
    rw [hm] at h2
    simp only [Option.any_some, Bool.and_eq_true, beq_iff_eq] at h2
    obtain ⟨h3, h4⟩ := h1 e (by simp [he, hn])
    exact ⟨m, by rw [hn, hm], by rw [h2.1.1, h3], by rw [h2.1.2, h4], .inr ⟨hn, h2.2⟩⟩
  · obtain ⟨m, h1, h2, h3, h4⟩ := instrMeta_complete he hn
    exact ⟨m, h1, h2.symm, h3.symm, .inl h4.symm⟩

end Verif
