import Verif.Model.Embed
import Verif.Spec.Embed

/-!
C139: the module that the library instantiates is the file that was built.
-/

namespace Spartan.Embed

open Spec.Embed

theorem byte_number : ∀ b : UInt8, (number (byteDigits b)).map UInt8.ofNat = some b := by
  intro ⟨⟨b⟩⟩
  revert b
  decide +kernel

theorem byte_chars : ∀ b : UInt8, byteDigits b ≠ [] ∧ ',' ∉ byteDigits b ∧ ']' ∉ byteDigits b := by
  intro ⟨⟨b⟩⟩
  revert b
  decide +kernel

theorem mapM_bytes : ∀ bs : List UInt8, ((bs.map byteDigits).mapM fun e => (number e).map UInt8.ofNat) = some bs
  | [] => rfl
  | b :: bs => by
    rw [List.map_cons, List.mapM_cons, byte_number, mapM_bytes bs]
    rfl

theorem toStr_ne {bs : List UInt8} (h : bs ≠ []) : toStr bs ≠ [] := by
  obtain ⟨b, bs, rfl⟩ := List.exists_cons_of_ne_nil h
  cases bs with
  | nil => simpa [toStr] using (byte_chars b).1
  | cons c bs =>
    intro e
    rw [toStr, List.map_cons, List.map_cons, List.intercalate_cons_cons] at e
    simp at e

theorem bracket_not_mem : ∀ bs : List UInt8, ']' ∉ toStr bs
  | [] => by simp [toStr]
  | [b] => by simpa [toStr] using (byte_chars b).2.2
  | b :: c :: bs => by
    have ih := bracket_not_mem (c :: bs)
    rw [toStr, List.map_cons] at ih
    rw [toStr, List.map_cons, List.map_cons, List.intercalate_cons_cons]
    intro h
    rw [List.mem_append, List.mem_append] at h
    rcases h with (h | h) | h
    · exact (byte_chars b).2.2 h
    · simp at h
    · exact ih h

theorem elements_toStr (bs : List UInt8) : elements (toStr bs) = some bs := by
  by_cases h : bs = []
  · subst h; rfl
  · rw [elements, if_neg (toStr_ne h), toStr, List.splitOn_intercalate _ (by
      intro l hl
      obtain ⟨b, -, rfl⟩ := List.mem_map.1 hl
      exact (byte_chars b).2.1) (by simpa using h)]
    exact mapM_bytes bs

theorem drop_white (w h r : List Char) (hw : w.all Char.isWhitespace = true) (hh : h.head?.all (!Char.isWhitespace ·) = true ∧ h ≠ []) :
    (w ++ h ++ r).dropWhile Char.isWhitespace = h ++ r := by
  rw [List.append_assoc, List.dropWhile_append_of_pos (by simpa using hw)]
  cases h with
  | nil => exact absurd rfl hh.2
  | cons c t =>
    have hc : Char.isWhitespace c = false := by simpa using hh.1
    rw [List.cons_append, List.dropWhile_cons_of_neg (by rw [hc]; exact Bool.false_ne_true)]

/-- The source file exports the bytes it was made from. -/
theorem exported_sourceFile (bs : List UInt8) : exported (sourceFile bs) = some bs := by
  have h1 : (sourceFile bs).dropWhile Char.isWhitespace =
      "export const wasmBytes = new Uint8Array([".toList ++ (toStr bs ++ "]);\n  ".toList) := by
    have e1 : "\n    export const wasmBytes = new Uint8Array([".toList =
        "\n    ".toList ++ "export const wasmBytes = new Uint8Array([".toList := by decide +kernel
    unfold sourceFile
    rw [e1, List.append_assoc]
    exact drop_white _ _ _ (by decide +kernel) (by decide +kernel)
  have h2 : ∀ x ∈ toStr bs, (decide (x ≠ ']')) = true := fun x hx =>
    decide_eq_true fun e => bracket_not_mem bs (e ▸ hx)
  unfold exported
  simp only [h1]
  rw [if_pos (by rw [List.isPrefixOf_iff_prefix]; exact List.prefix_append _ _), List.drop_left,
    List.dropWhile_append_of_pos h2, List.takeWhile_append_of_pos h2]
  rw [if_pos (by decide +kernel), show ("]);\n  ".toList).takeWhile (fun x => decide (x ≠ ']')) = [] by decide +kernel,
    List.append_nil]
  exact elements_toStr bs

/-- C139: for a wasm file of at least 4096 bytes, the module that the script writes exports exactly the bytes of the file,
whatever is in the shared store. -/
theorem embed_partial (pool : List UInt8) (free : ℕ) (file : List UInt8) (h : 4096 ≤ file.length) :
    exported (embedWasmBytes pool free file) = some file := by
  rw [embedWasmBytes, exported_sourceFile, wholeStore, readFileSync, if_neg (by omega)]

/-- C139: for every smaller file it exports the whole shared store, of which the file is only a part. -/
theorem embed_small (pool : List UInt8) (hp : pool.length = 8192) (free : ℕ) (file : List UInt8) (h : file.length < 4096)
    (hf : free + file.length ≤ 8192) :
    ∃ bs, exported (embedWasmBytes pool free file) = some bs ∧ bs ≠ file ∧ bs.length = 8192 ∧
      (bs.drop free).take file.length = file := by
  refine ⟨_, exported_sourceFile _, ?_⟩
  rw [wholeStore, readFileSync, if_pos h]
  dsimp only
  have hl : (pool.take free ++ file ++ pool.drop (free + file.length)).length = 8192 := by
    simp only [List.length_append, List.length_take, List.length_drop]
    omega
  refine ⟨fun e => ?_, hl, ?_⟩
  · rw [e] at hl; omega
  · rw [List.append_assoc, List.drop_left' (by rw [List.length_take]; omega), List.take_left]

/-- A small file, and a large one. -/
example : exported (embedWasmBytes (List.replicate 8192 7) 16 [0, 97, 115, 109]) ≠ some [0, 97, 115, 109] := by
  obtain ⟨bs, h1, h2, -⟩ := embed_small (List.replicate 8192 7) (List.length_replicate ..) 16 [0, 97, 115, 109]
    (by decide) (by decide)
  rw [h1, ne_eq, Option.some.injEq]
  exact h2

example (pool : List UInt8) (free : ℕ) :
    exported (embedWasmBytes pool free (List.replicate 5000 255)) = some (List.replicate 5000 255) :=
  embed_partial pool free _ (by rw [List.length_replicate]; decide)

end Spartan.Embed
