import Verif.Model.Scanner
/-!
# Running scanner code
-/
namespace Verif.Scanner
open Verif Verif.CharUtils Verif.Source

theorem pure_run {α} (a : α) (s) : (pure a : SM α) s = (.ok a, s) := rfl

theorem bind_run {α β} {m : SM α} {f : α → SM β} {s a s1} (e : m s = (.ok a, s1)) : (m >>= f) s = f a s1 := by
  simp only [Bind.bind]; rw [e]

theorem bind_assoc_run {α β γ} (m : SM α) (f : α → SM β) (g : β → SM γ) : ((m >>= f) >>= g) = (m >>= fun a => f a >>= g) := by
  funext s
  simp only [Bind.bind]
  rcases m s with ⟨_ | _ | _ | _, s1⟩ <;> rfl

theorem pure_bind_run {α β} (a : α) (f : α → SM β) : ((pure a : SM α) >>= f) = f a := rfl
theorem gets_bind {α β} (g : SSt → α) (f : α → SM β) (s) : (gets g >>= f) s = f (g s) s := rfl
theorem getMark_bind {β} (f : Marker → SM β) (s) : (getMark >>= f) s = f s.mark s := rfl
theorem peekz_bind {β} (n) (f : Byte → SM β) (s) : (peekz n >>= f) s = f (s.src.peekz n) s := rfl
theorem atEof_bind {β} (f : Bool → SM β) (s) : (atEof >>= f) s = f s.src.bufIsEmpty s := rfl
theorem upd_bind {β} (g : SSt → SSt) (f : Unit → SM β) (s) : (upd g >>= f) s = f () (g s) := rfl
theorem failIf_false {m msg} : failIf false m msg = pure () := rfl
theorem failIf_true {m msg} (s) : failIf true m msg s = (.err (.scanner m msg), s) := rfl
theorem when_true {m : SM Unit} : when true m = m := rfl
theorem when_false {m : SM Unit} : when false m = pure () := rfl

theorem ite_run {α} {c : Prop} [Decidable c] (a b : SM α) (s) : (if c then a else b) s = if c then a s else b s := by
  split <;> rfl

theorem ite_bind_run {α β} {c : Prop} [Decidable c] (a b : SM α) (f : α → SM β) :
    ((if c then a else b) >>= f) = if c then a >>= f else b >>= f := by
  split <;> rfl

theorem loop_next {σ α} {body : σ → SM (Loop σ α)} {n a s b s1} (e : body a s = (.ok (.next b), s1)) :
    loopM body (n + 1) a s = loopM body n b s1 := by
  rw [loopM]; exact bind_run e

theorem loop_done {σ α} {body : σ → SM (Loop σ α)} {n a s b s1} (e : body a s = (.ok (.done b), s1)) :
    loopM body (n + 1) a s = (.ok b, s1) := by
  rw [loopM]; exact bind_run e

/-- evaluation of straight line code -/
macro "ev" "[" ls:Lean.Parser.Tactic.simpLemma,* "]" : tactic =>
  `(tactic| simp only [bind_assoc_run, pure_bind_run, gets_bind, getMark_bind, peekz_bind, atEof_bind, upd_bind, pure_run, failIf_false,
    failIf_true, when_true, when_false, ite_run, ite_bind_run, if_true, if_false, Bool.false_eq_true, reduceIte, $ls,*])

end Verif.Scanner
