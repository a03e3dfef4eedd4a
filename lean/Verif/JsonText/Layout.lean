/-
The exact text that is written.
-/
import Verif.JsonText.WriterLemmas

namespace Verif.JsonText
open Verif.Path Verif.Serial Spec

theorem indent_line (k : Nat) : 0x0A#8 :: indent k = line true k := rfl

theorem separator_line (pretty : Bool) (k : Nat) (a : Bool) : separator pretty k ⟨a, 0⟩ = line pretty k := by
  cases pretty <;> cases a <;> simp [separator, line, indent]

theorem separator_comma (pretty : Bool) (k n : Nat) : separator pretty k ⟨true, n + 1⟩ = txt "," ++ line pretty k := by
  cases pretty <;> simp [separator, line, indent, txt, ch]

theorem separator_even (pretty : Bool) (k n : Nat) : separator pretty k ⟨false, 2 * n + 2⟩ = txt "," ++ line pretty k := by
  cases pretty <;> simp [separator, line, indent, txt, ch]

theorem separator_odd (pretty : Bool) (k n : Nat) : separator pretty k ⟨false, 2 * n + 1⟩ = colon pretty := by
  have h : ¬ (2 * n + 1) % 2 = 0 := by omega
  cases pretty <;> simp [separator, colon, h, txt, ch]

theorem pre_length (pretty : Bool) (w : Writer) : (w.pre pretty).levels.length = w.levels.length := by
  rcases w with ⟨o, l⟩
  cases l <;> rfl

theorem close_line (pretty : Bool) (n k : Nat) : (if pretty && n + 1 != 0 then [0x0A#8] ++ indent k else []) = line pretty k := by
  cases pretty <;> simp [line, indent]

mutual
theorem run_render (F : Floats) (pretty : Bool) : ∀ (d : JDoc) (w : Writer),
    w.run F pretty (events d) = (w.pre pretty).put (render F pretty w.levels.length d)
  | .null, w => by simp only [events, render, Writer.run, Writer.step]
  | .scalar s, w => by simp only [events, render, Writer.run, Writer.step]
  | .arr [], w => by
    simp [events, eventsArr, Writer.run, Writer.step, Writer.close, Writer.put, render, txt, ch]
  | .arr (d :: ds), w => by
    let w1 : Writer := ⟨(w.pre pretty).out ++ [ch '['], ⟨true, 0⟩ :: (w.pre pretty).levels⟩
    have hw : w.run F pretty (events (.arr (d :: ds))) =
        ((w1.run F pretty (events d)).run F pretty (eventsArr ds)).run F pretty [.endSeq] := by
      rw [events, eventsArr, List.cons_append, run_cons, run_append, run_append]
      rfl
    have hl : w1.levels.length = w.levels.length + 1 := by simp [w1, pre_length]
    rw [hw, run_render F pretty d w1, hl, pre_level, separator_line]
    simp only [Writer.put, pre_length]
    obtain ⟨m, hm⟩ := run_renderAll F pretty ds 0 (w1.out ++ line pretty (w.levels.length + 1) ++
      render F pretty (w.levels.length + 1) d) (w.pre pretty).levels
    rw [hm]
    simp only [Writer.run, Writer.step, Writer.close, close_line, render, pre_length]
    simp [w1, txt, ch]
  | .obj [], w => by
    simp [events, eventsObj, Writer.run, Writer.step, Writer.close, Writer.put, render, txt, ch]
  | .obj ((k, d) :: ms), w => by
    let w1 : Writer := ⟨(w.pre pretty).out ++ [ch '{'] ++ line pretty (w.levels.length + 1) ++ quoted k,
      ⟨false, 1⟩ :: (w.pre pretty).levels⟩
    have hw : w.run F pretty (events (.obj ((k, d) :: ms))) =
        ((w1.run F pretty (events d)).run F pretty (eventsObj ms)).run F pretty [.endMap] := by
      rw [events, eventsObj, List.cons_append, run_cons, run_append, List.cons_append, run_cons F pretty (.key k), run_append]
      have hstep : (w.step F pretty .beginMap).step F pretty (.key k) = w1 := by
        simp only [Writer.step, pre_level, separator_line, Writer.put, pre_length, w1]
      rw [hstep]
    have hl : w1.levels.length = w.levels.length + 1 := by simp [w1, pre_length]
    rw [hw, run_render F pretty d w1, hl, pre_level, separator_odd pretty _ 0]
    simp only [Writer.put]
    obtain ⟨m, hm⟩ := run_renderMembers F pretty ms 0 (w1.out ++ colon pretty ++
      render F pretty (w.levels.length + 1) d) (w.pre pretty).levels
    rw [hm]
    simp only [Writer.run, Writer.step, Writer.close, close_line, render, pre_length]
    simp [w1, txt, ch]
theorem run_renderAll (F : Floats) (pretty : Bool) : ∀ (ds : List JDoc) (n : Nat) (o : Str) (ls : List Level),
    ∃ m, Writer.run F pretty ⟨o, ⟨true, n + 1⟩ :: ls⟩ (eventsArr ds) =
      ⟨o ++ renderAll F pretty (ls.length + 1) ds, ⟨true, m + 1⟩ :: ls⟩
  | [], n, o, ls => ⟨n, by simp [eventsArr, Writer.run, renderAll]⟩
  | d :: ds, n, o, ls => by
    obtain ⟨m, hm⟩ := run_renderAll F pretty ds (n + 1) (o ++ (txt "," ++ line pretty (ls.length + 1)) ++
      render F pretty (ls.length + 1) d) ls
    refine ⟨m, ?_⟩
    rw [eventsArr, run_append, run_render F pretty d, pre_level, separator_comma]
    simp only [Writer.put, List.length_cons]
    rw [hm]
    simp [renderAll]
theorem run_renderMembers (F : Floats) (pretty : Bool) : ∀ (ms : List (Str × JDoc)) (n : Nat) (o : Str) (ls : List Level),
    ∃ m, Writer.run F pretty ⟨o, ⟨false, 2 * n + 2⟩ :: ls⟩ (eventsObj ms) =
      ⟨o ++ renderMembers F pretty (ls.length + 1) ms, ⟨false, m + 1⟩ :: ls⟩
  | [], n, o, ls => ⟨2 * n + 1, by simp [eventsObj, Writer.run, renderMembers]⟩
  | (k, d) :: ms, n, o, ls => by
    obtain ⟨m, hm⟩ := run_renderMembers F pretty ms (n + 1) (o ++ (txt "," ++ line pretty (ls.length + 1)) ++ quoted k ++
      colon pretty ++ render F pretty (ls.length + 1) d) ls
    refine ⟨m, ?_⟩
    have hstep : Writer.step F pretty ⟨o, ⟨false, 2 * n + 2⟩ :: ls⟩ (.key k) =
        ⟨o ++ (txt "," ++ line pretty (ls.length + 1)) ++ quoted k, ⟨false, 2 * (n + 1) + 1⟩ :: ls⟩ := by
      simp only [Writer.step, pre_level, separator_even, Writer.put]
      congr 1
    rw [eventsObj, List.cons_append, run_cons, run_append, hstep, run_render F pretty d, pre_level, separator_odd]
    simp only [Writer.put, List.length_cons]
    rw [show 2 * (n + 1) + 1 + 1 = 2 * (n + 1) + 2 by omega, hm]
    simp [renderMembers]
end

/-! ### Null characters -/

theorem noNull_line (pretty : Bool) (k : Nat) : NoNull (line pretty k) := by
  cases pretty
  · exact noNull_nil
  · exact noNull_ws (ws_indent k)

theorem noNull_colon (pretty : Bool) : NoNull (colon pretty) := by
  cases pretty <;> unfold NoNull <;> decide

theorem noNull_quoted (s : Str) : NoNull (quoted s) := noNull_string (quoted_of s)

theorem noNull_scalar {F : Floats} (hF : Printable F) (s : JScalar) : NoNull (scalarText F s) := by
  cases s with
  | bool b => cases b <;> simp only [scalarText, NoNull] <;> decide
  | int n => exact noNull_int (number_of n)
  | dbl b =>
    simp only [scalarText]
    split
    · rename_i h; exact noNull_real (hF b h)
    · exact noNull_nil
  | str s => exact noNull_quoted s

theorem noNull_txt {s : Str} (h : s.all (· != 0#8) = true) : NoNull s := by
  intro c hc
  have := List.all_eq_true.1 h c hc
  simpa using this

mutual
theorem noNull_render {F : Floats} (hF : Printable F) (pretty : Bool) : ∀ (k : Nat) (d : JDoc), NoNull (render F pretty k d)
  | k, .null => by rw [render]; exact noNull_txt (by decide)
  | k, .scalar s => by rw [render]; exact noNull_scalar hF s
  | k, .arr [] => by rw [render]; exact noNull_txt (by decide)
  | k, .arr (d :: ds) => by
    rw [render]
    exact noNull_append (noNull_append (noNull_append (noNull_append (noNull_append (noNull_txt (by decide))
      (noNull_line _ _)) (noNull_render hF pretty _ d)) (noNull_renderAll hF pretty _ ds)) (noNull_line _ _))
      (noNull_txt (by decide))
  | k, .obj [] => by rw [render]; exact noNull_txt (by decide)
  | k, .obj ((key, d) :: ms) => by
    rw [render]
    exact noNull_append (noNull_append (noNull_append (noNull_append (noNull_append (noNull_append (noNull_append
      (noNull_txt (by decide)) (noNull_line _ _)) (noNull_quoted _)) (noNull_colon _)) (noNull_render hF pretty _ d))
      (noNull_renderMembers hF pretty _ ms)) (noNull_line _ _)) (noNull_txt (by decide))
theorem noNull_renderAll {F : Floats} (hF : Printable F) (pretty : Bool) : ∀ (k : Nat) (ds : List JDoc),
    NoNull (renderAll F pretty k ds)
  | k, [] => by rw [renderAll]; exact noNull_nil
  | k, d :: ds => by
    rw [renderAll]
    exact noNull_append (noNull_append (noNull_append (noNull_txt (by decide)) (noNull_line _ _))
      (noNull_render hF pretty _ d)) (noNull_renderAll hF pretty _ ds)
theorem noNull_renderMembers {F : Floats} (hF : Printable F) (pretty : Bool) : ∀ (k : Nat) (ms : List (Str × JDoc)),
    NoNull (renderMembers F pretty k ms)
  | k, [] => by rw [renderMembers]; exact noNull_nil
  | k, (key, d) :: ms => by
    rw [renderMembers]
    exact noNull_append (noNull_append (noNull_append (noNull_append (noNull_append (noNull_txt (by decide)) (noNull_line _ _))
      (noNull_quoted _)) (noNull_colon _)) (noNull_render hF pretty _ d)) (noNull_renderMembers hF pretty _ ms)
end

/-- The text of `dump` and `pretty_dump` is the layout. -/
theorem dumpText_render {F : Floats} (hF : Printable F) (pretty : Bool) (d : JDoc) :
    dumpText F pretty (events d) = render F pretty 0 d := by
  rw [dumpText, run_render]
  simp only [Writer.pre, Writer.put, List.nil_append, List.length_nil]
  exact cString_eq (noNull_render hF pretty 0 d)

end Verif.JsonText
