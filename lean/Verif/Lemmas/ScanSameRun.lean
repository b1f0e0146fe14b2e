import Verif.Lemmas.ScanSameFetch
import Verif.Spec.Places
/-!
# Two runs of the scanner side by side: whole runs
-/
namespace Verif.Scanner
open Verif Verif.CharUtils Verif.Source Verif.Spec

variable {b : Bool} {l : Nat}

/-- line and column of a place, some lines further down -/
def down (l : Nat) (m : Marker) : Marker := ⟨0, m.col, m.line + l⟩

theorem MR.eq {m m'} (h : MR l m m') : lineCol m' = down l m := by
  obtain ⟨h1, h2⟩ := h
  simp [lineCol, down, h1, h2]

theorem TokR.eq {t t'} (h : TokR l t t') : Token.mapM lineCol t' = Token.mapM (down l) t := by
  obtain ⟨h1, h2, h3⟩ := h
  simp [Token.mapM, Span.mapM, h1, h2.eq, h3.eq]

theorem ErrR.eq {e e'} (h : ErrR l e e') : YErr.mapM lineCol e' = YErr.mapM (down l) e := by
  rcases h with ⟨rfl, rfl⟩ | ⟨m, m', msg, rfl, rfl, hm⟩
  · rfl
  · simp [YErr.mapM, hm.eq]

theorem after_fixed {cfg n} {s : SSt} (h : s.error.isSome = true ∨ s.streamEndReached = true) : afterNext cfg n s = s := by
  have hn : next cfg s = (.ok none, s) := by
    unfold next
    rw [if_pos (by simpa using h)]
  induction n with
  | zero => rfl
  | succ n ih => rw [afterNext, hn]; exact ih

theorem scan_same {cfg} : ∀ n (s s' : SSt), Rel b l s s' → (scan cfg n s).2 ≠ .panicked →
    (scan cfg n s').1.map (Token.mapM lineCol) = (scan cfg n s).1.map (Token.mapM (down l)) ∧
    ScanStop.mapM lineCol (scan cfg n s').2 = ScanStop.mapM (down l) (scan cfg n s).2 ∧
    ((scan cfg n s).2 ≠ .hung → MR l (afterNext cfg n s).mark (afterNext cfg n s').mark) := by
  intro n
  induction n with
  | zero => intro s s' h _; exact ⟨rfl, rfl, fun _ => h.mark⟩
  | succ n ih =>
    intro s s' h hp
    rw [scan] at hp ⊢
    rw [scan]
    by_cases hr : s.streamEndReached = true
    · have h1 : next cfg s = (.ok none, s) := by unfold next; rw [if_pos (by simp [hr])]
      have h2 : next cfg s' = (.ok none, s') := by unfold next; rw [if_pos (by simp [h.reached, hr])]
      have h3 : afterNext cfg (n + 1) s = s := after_fixed (.inr hr)
      have h4 : afterNext cfg (n + 1) s' = s' := after_fixed (.inr (by rw [h.reached, hr]))
      rw [h1, h2, h3, h4]
      simp only [h.error.1, h.error.2]
      exact ⟨rfl, rfl, fun _ => h.mark⟩
    · have hr : s.streamEndReached = false := by simpa using hr
      have ht := out_nextToken (cfg := cfg) h (by rw [h.ended, hr])
      have h1 : next cfg s = (match nextToken cfg s with
          | (.ok t, s') => (.ok (some t), s')
          | (.err e, s') => (.ok none, { s' with error := some e })
          | (.panic, s') => (.panic, s')
          | (.hang, s') => (.hang, s')) := by unfold next; rw [if_neg (by simp [h.error.1, hr])]; rfl
      have h2 : next cfg s' = (match nextToken cfg s' with
          | (.ok t, s') => (.ok (some t), s')
          | (.err e, s') => (.ok none, { s' with error := some e })
          | (.panic, s') => (.panic, s')
          | (.hang, s') => (.hang, s')) := by unfold next; rw [if_neg (by simp [h.error.2, h.reached, hr])]; rfl
      rw [afterNext, afterNext]
      rw [h1] at hp ⊢
      rw [h2]
      rcases e : nextToken cfg s with ⟨r, t⟩
      rcases e' : nextToken cfg s' with ⟨r', t'⟩
      rw [e] at ht hp
      rw [e'] at ht
      cases r with
      | panic => exact absurd rfl hp
      | hang =>
        cases r' with
        | hang => exact ⟨rfl, rfl, fun hx => absurd rfl hx⟩
        | _ => exact ht.elim
      | err x =>
        cases r' with
        | err x' =>
          obtain ⟨hx, hm⟩ := ht
          simp only
          rw [after_fixed (.inl rfl), after_fixed (.inl rfl)]
          exact ⟨rfl, by simp [ScanStop.mapM, hx.eq], fun _ => hm⟩
        | _ => exact ht.elim
      | ok x =>
        cases r' with
        | ok x' =>
          obtain ⟨hx, hm⟩ := ht
          simp only at hp ⊢
          obtain ⟨i1, i2, i3⟩ := ih _ _ hm hp
          exact ⟨by simp [i1, hx.eq], i2, i3⟩
        | _ => exact ht.elim

theorem rel_new {i : List Byte} (h : 13 ∉ i) : Rel true 0 (Scanner.new i) (Scanner.new (crlf i)) where
  rest := rfl
  nocr := fun _ => h
  over := ⟨0, by simp [Scanner.new, Src.new], by simp [Scanner.new, Src.new], nofun⟩
  mark := ⟨rfl, rfl⟩
  tokens := rfl
  keys := .nil
  adj := Nat.zero_le _
  adj' := Nat.zero_le _
  adjs := .inl rfl
  indents := rfl
  implicit := rfl
  reached := rfl
  available := rfl
  allowed := rfl
  started := rfl
  produced := rfl
  ended := rfl
  leading := rfl
  flowMapping := rfl
  parsed := rfl
  level := rfl
  indent := rfl
  error := ⟨rfl, rfl⟩

end Verif.Scanner
