import Verif.Num.Rational
import Verif.Common.Text
/-! # Text of `Rational` — model of numeric.rs:732-774 -/
namespace Verif.Num.Rational

/-- `Rational::parse` (numeric.rs:734-743). -/
def parse (ws : Char → Bool) (s : List Char) : Option Rational :=
  let s := trim ws s
  match splitOnce '/' s with
  | some (n, d) =>
    match parseInt (trim ws n) with
    | none => none
    | some num => match parseInt (trim ws d) with
      | none => none
      | some den => new num den
  | none => (parseInt s).map ofInt

/-- `impl Display for Rational` (numeric.rs:760-768). -/
def display (r : Rational) : List Char :=
  if r.isInteger then showInt r.num else showInt r.num ++ '/' :: showInt r.den

theorem slash_not_mem (n : Int) : '/' ∉ showInt n := by
  intro h
  rcases mem_showInt h with h | h
  · exact absurd h (by decide)
  · exact absurd h (by decide)

theorem parse_display {ws : Char → Bool} (hw : NumeralChars ws) {r : Rational} (h : r.Wf) :
    parse ws r.display = some r := by
  have hws : ∀ c ∈ r.display, ws c = false := by
    intro c hc
    unfold display at hc
    split at hc
    · exact hw.showInt hc
    · rw [List.mem_append, List.mem_cons] at hc
      rcases hc with hc | rfl | hc
      · exact hw.showInt hc
      · exact hw.slash
      · exact hw.showInt hc
  unfold parse
  simp only
  rw [trim_id hws]
  unfold display
  by_cases hi : r.isInteger = true
  · rw [if_pos hi, splitOnce_none (slash_not_mem _), parseInt_showInt]
    simp only [isInteger, decide_eq_true_eq] at hi
    simp only [Option.map_some, ofInt]
    rw [← hi]
  · rw [if_neg hi, splitOnce_append (slash_not_mem _)]
    simp only
    rw [trim_id (fun c hc => hw.showInt hc), trim_id (fun c hc => hw.showInt hc), parseInt_showInt, parseInt_showInt]
    simp only
    obtain ⟨r', h1, h2, h3⟩ := new_spec (n := r.num) h.pos.ne'
    rw [h1]
    congr 1
    exact eq_of_toRat h2 h h3

end Verif.Num.Rational
