import Verif.Token.Model

/-!
# A colon behind the name of a sheet (C25)

`/repo/crates/formualizer-parse/src/tokenizer.rs` 1306-1318 and 877-927.
-/

namespace Verif.Token

variable (cfg : Cfg)

/-- **C25.** A colon right behind an operand that ends in `!` belongs to the operand: no token is cut. -/
theorem colon_after_bang (s : St) (hs : sciHere cfg s = false) (ht : s.hasTok = true)
    (hb : (s.cur cfg).getLast? = some '!') : step cfg s ':' = (s.extend 1, none) := by
  have h : colonInfix cfg s = false := by
    unfold colonInfix
    simp only [ht, hb, if_true]
  unfold step
  rw [hs, show isEnder ':' = false by decide]
  simp [dispatch, h, isWs]

/-- In `=S!:A` the colon at place 3 is read on. -/
example : let cfg : Cfg := ⟨"=S!:A".toList, fun _ => false, false⟩
    let s : St := ⟨[], [], 3, 1, 3, []⟩
    s.cur cfg = "S!".toList ∧ (step cfg s ':').1.off = 4 ∧ (step cfg s ':').1.spans = [] := by
  decide +kernel

end Verif.Token
