import Verif.Model.Scanner
import Verif.Lemmas.Utf8
import Verif.Spec.Positions
import Verif.Spec.ScanInputs
/-!
# A program logic for the scanner monad, and moves of the reading position
-/
namespace Verif.Scanner
open Verif Verif.CharUtils Verif.Source

/-- What a statement about scanner code is relative to: the run's parameters, what a panic and a hang would imply, the input,
what holds of every error, a hypothesis under which the input is valid UTF-8, and what a deep indentation would imply. -/
structure Ctx where
  cfg : Cfg
  pn : Prop
  hg : Prop
  input : List Byte
  E : YErr → Prop
  U : Prop
  lg : Prop

/-- Running `m` from `s` gives a value and a state satisfying `Q`, or an error satisfying `x.E`; if it panics `x.pn` holds and if it
hangs `x.hg` holds. -/
def wp {α} (x : Ctx) (m : SM α) (Q : α → SSt → Prop) (s : SSt) : Prop :=
  match m s with
  | (.ok a, s') => Q a s'
  | (.err e, _) => x.E e
  | (.panic, _) => x.pn
  | (.hang, _) => x.hg

theorem wp_pure {α x} {a : α} {Q s} (h : Q a s) : wp x (pure a) Q s := h

theorem wp_bind {α β x} {m : SM α} {f : α → SM β} {Q s} (h : wp x m (fun a s' => wp x (f a) Q s') s) :
    wp x (m >>= f) Q s := by
  simp only [wp, Bind.bind] at *
  cases hm : m s with
  | mk r s' => cases r <;> simp only [hm] at h ⊢ <;> exact h

theorem wp_mono {α x} {m : SM α} {Q Q' : α → SSt → Prop} {s} (h : wp x m Q s) (hq : ∀ a s', Q a s' → Q' a s') :
    wp x m Q' s := by
  simp only [wp] at *
  cases hm : m s with
  | mk r s' => cases r <;> simp only [hm] at h ⊢ <;> first | exact hq _ _ h | exact h

theorem wp_gets {α x} {f : SSt → α} {Q s} (h : Q (f s) s) : wp x (gets f) Q s := h

theorem wp_upd {x f} {Q : Unit → SSt → Prop} {s} (h : Q () (f s)) : wp x (upd f) Q s := h

theorem wp_fail {α x m msg} {Q : α → SSt → Prop} {s} (h : x.E (.scanner m msg)) : wp x (fail m msg) Q s := h

theorem wp_panic {α x} {Q : α → SSt → Prop} {s} (h : x.pn) : wp x panic Q s := h

theorem wp_hang {α x} {Q : α → SSt → Prop} {s} (h : x.hg) : wp x hang Q s := h

theorem wp_failIf {x c m msg} {Q : Unit → SSt → Prop} {s} (h1 : x.E (.scanner m msg)) (h2 : c = false → Q () s) :
    wp x (failIf c m msg) Q s := by
  cases c
  · exact h2 rfl
  · exact h1

theorem wp_when {x c m} {Q : Unit → SSt → Prop} {s} (h1 : c = true → wp x m Q s) (h2 : c = false → Q () s) :
    wp x (when c m) Q s := by
  cases c
  · exact h2 rfl
  · exact h1 rfl

theorem wp_ite {α x} {c : Prop} [Decidable c] {m n : SM α} {Q s} (h1 : c → wp x m Q s) (h2 : ¬c → wp x n Q s) :
    wp x (if c then m else n) Q s := by
  split
  · exact h1 ‹_›
  · exact h2 ‹_›

/-- What an iteration of a loop has to establish: the invariant again and a smaller measure, or the loop's postcondition. -/
def LoopPost {σ α} (x : Ctx) (I : σ → SSt → Prop) (μ : σ → SSt → Nat) (Q : α → SSt → Prop) (n : Nat) :
    Loop σ α → SSt → Prop
  | .next b, s' => I b s' ∧ (μ b s' < n ∨ x.hg)
  | .done v, s' => Q v s'

theorem wp_loopM {σ α x} {body : σ → SM (Loop σ α)} (I : σ → SSt → Prop) (μ : σ → SSt → Nat) {Q : α → SSt → Prop}
    {n a s} (hI : I a s) (hb : ∀ a s, I a s → wp x (body a) (LoopPost x I μ Q (μ a s)) s) (hf : μ a s < n ∨ x.hg) :
    wp x (loopM body n a) Q s := by
  induction n generalizing a s with
  | zero =>
    rcases hf with hf | hf
    · omega
    · exact wp_hang hf
  | succ n ih =>
    simp only [loopM]
    apply wp_bind
    refine wp_mono (hb a s hI) ?_
    intro r s' hr
    cases r with
    | next b =>
      simp only [LoopPost] at hr ⊢
      refine ih hr.1 ?_
      rcases hr.2 with h | h
      · rcases hf with hf | hf
        · exact .inl (by omega)
        · exact .inr hf
      · exact .inr h
    | done v => exact wp_pure hr

theorem wp_run {α x} {m : SM α} {Q s} (h : wp x m Q s) :
    match m s with
    | (.ok a, s') => Q a s'
    | (.err e, _) => x.E e
    | (.panic, _) => x.pn
    | (.hang, _) => x.hg := h

theorem wp_of {α x} {m : SM α} {Q s} (h : match m s with
    | (.ok a, s') => Q a s'
    | (.err e, _) => x.E e
    | (.panic, _) => x.pn
    | (.hang, _) => x.hg) : wp x m Q s := h

attribute [irreducible] wp

/-! ## Moving forward in the input -/

/-- The reading position moves forward, byte by byte within a line or over a line break. -/
inductive Mv : Src → Marker → Src → Marker → Prop
  | refl {s m} : Mv s m s m
  | byte {c r p l q k ln s' m'} : c ≠ 10 → Mv ⟨r, p + 1, l⟩ ⟨q + 1, k + 1, ln⟩ s' m' →
      Mv ⟨c :: r, p, l⟩ ⟨q, k, ln⟩ s' m'
  | nl {r p l q k ln s' m'} : Mv ⟨r, p + 1, l⟩ ⟨q + 1, 1, ln + 1⟩ s' m' → Mv ⟨10 :: r, p, l⟩ ⟨q, k, ln⟩ s' m'
  | crnl {r p l q k ln s' m'} : Mv ⟨r, p + 2, l⟩ ⟨q + 2, 1, ln + 1⟩ s' m' → Mv ⟨13 :: 10 :: r, p, l⟩ ⟨q, k, ln⟩ s' m'

theorem Mv.trans {a m b n c o} (h1 : Mv a m b n) (h2 : Mv b n c o) : Mv a m c o := by
  induction h1 with
  | refl => exact h2
  | byte hc _ ih => exact .byte hc (ih h2)
  | nl _ ih => exact .nl (ih h2)
  | crnl _ ih => exact .crnl (ih h2)

theorem Mv.bytes (w r : List Byte) (p l q k ln) (hw : 10 ∉ w) :
    Mv ⟨w ++ r, p, l⟩ ⟨q, k, ln⟩ ⟨r, p + w.length, l⟩ ⟨q + w.length, k + w.length, ln⟩ := by
  induction w generalizing p q k with
  | nil => exact .refl
  | cons c w ih =>
    simp only [List.mem_cons, not_or] at hw
    have h1 := ih (p + 1) (q + 1) (k + 1) hw.2
    refine .byte (Ne.symm hw.1) ?_
    have e1 : p + (c :: w).length = p + 1 + w.length := by simp; omega
    have e2 : q + (c :: w).length = q + 1 + w.length := by simp; omega
    have e3 : k + (c :: w).length = k + 1 + w.length := by simp; omega
    rw [e1, e2, e3]; exact h1

/-- The input is what was read followed by what is left. -/
theorem Mv.split {a m b n} (h : Mv a m b n) :
    ∃ w, a.rest = w ++ b.rest ∧ b.pos = a.pos + w.length ∧ b.len = a.len ∧ n.pos = m.pos + w.length
      ∧ m.line ≤ n.line ∧ (m.line = n.line → n.col = m.col + w.length) := by
  induction h with
  | refl => exact ⟨[], by simp⟩
  | @byte c r p l q k ln s' m' hc _ ih =>
    obtain ⟨w, h1, h2, h3, h4, h5, h6⟩ := ih
    simp only at *
    refine ⟨c :: w, by simp [h1], by simp; omega, h3, by simp; omega, h5, ?_⟩
    intro e
    have := h6 e; simp; omega
  | @nl r p l q k ln s' m' _ ih =>
    obtain ⟨w, h1, h2, h3, h4, h5, h6⟩ := ih
    simp only at *
    refine ⟨10 :: w, by simp [h1], by simp; omega, h3, by simp; omega, by omega, ?_⟩
    intro e; omega
  | @crnl r p l q k ln s' m' _ ih =>
    obtain ⟨w, h1, h2, h3, h4, h5, h6⟩ := ih
    simp only at *
    refine ⟨13 :: 10 :: w, by simp [h1], by simp; omega, h3, by simp; omega, by omega, ?_⟩
    intro e; omega

/-- All fields but the position and two flags are the same. -/
structure Same (s s' : SSt) : Prop where
  tokens : s'.tokens = s.tokens
  error : s'.error = s.error
  simpleKeys : s'.simpleKeys = s.simpleKeys
  indents : s'.indents = s.indents
  ifms : s'.implicitFlowMappingStates = s.implicitFlowMappingStates
  reached : s'.streamEndReached = s.streamEndReached
  available : s'.tokensAvailable = s.tokensAvailable
  started : s'.streamStartProduced = s.streamStartProduced
  ended : s'.streamEndProduced = s.streamEndProduced
  fms : s'.flowMappingStarted = s.flowMappingStarted
  adjacent : s'.adjacentValueAllowedAt = s.adjacentValueAllowedAt
  parsed : s'.tokensParsed = s.tokensParsed
  flowLevel : s'.flowLevel = s.flowLevel
  indent : s'.indent = s.indent

theorem Same.refl (s) : Same s s := ⟨rfl, rfl, rfl, rfl, rfl, rfl, rfl, rfl, rfl, rfl, rfl, rfl, rfl, rfl⟩

theorem Same.trans {a b c} (h : Same a b) (k : Same b c) : Same a c :=
  ⟨k.1.trans h.1, k.2.trans h.2, k.3.trans h.3, k.4.trans h.4, k.5.trans h.5, k.6.trans h.6, k.7.trans h.7, k.8.trans h.8,
   k.9.trans h.9, k.10.trans h.10, k.11.trans h.11, k.12.trans h.12, k.13.trans h.13, k.14.trans h.14⟩

/-- `s'` is `s` moved forward in the input. -/
structure Adv (s s' : SSt) : Prop where
  mv : Mv s.src s.mark s'.src s'.mark
  same : Same s s'

theorem Adv.refl (s) : Adv s s := ⟨.refl, .refl s⟩
theorem Adv.trans {a b c} (h : Adv a b) (k : Adv b c) : Adv a c := ⟨h.mv.trans k.mv, h.same.trans k.same⟩

theorem Adv.len_le {s s'} (h : Adv s s') : s'.src.rest.length ≤ s.src.rest.length := by
  obtain ⟨w, hw, _⟩ := h.mv.split
  rw [hw]; simp

theorem Adv.pos_le {s s'} (h : Adv s s') : s.mark.pos ≤ s'.mark.pos := by
  obtain ⟨w, _, _, _, h4, _⟩ := h.mv.split
  omega

theorem Adv.line_le {s s'} (h : Adv s s') : s.mark.line ≤ s'.mark.line := by
  obtain ⟨w, _, _, _, _, h5, _⟩ := h.mv.split
  omega

theorem Adv.col_le {s s'} (h : Adv s s') (e : s.mark.line = s'.mark.line) : s.mark.col ≤ s'.mark.col := by
  obtain ⟨w, _, _, _, _, _, h6⟩ := h.mv.split
  have := h6 e; omega

/-! ## What is known of the rest of the input -/

open Verif.Spec (LoneCR LateIndicator LongLine)

theorem _root_.Verif.Spec.LoneCR.app {l} (a : List Byte) (h : LoneCR l) : LoneCR (a ++ l) := by
  obtain ⟨p, q, rfl, h⟩ := h
  exact ⟨a ++ p, q, by simp, h⟩

theorem _root_.Verif.Spec.LateIndicator.app {l} (a : List Byte) (h : LateIndicator l) : LateIndicator (a ++ l) := by
  obtain ⟨p, c, q, rfl, h⟩ := h
  exact ⟨a ++ p, c, q, by simp, h⟩

theorem _root_.Verif.Spec.LongLine.app {l} (a : List Byte) (h : LongLine l) : LongLine (a ++ l) := by
  obtain ⟨p, c, q, rfl, h⟩ := h
  exact ⟨a ++ p, c, q, by simp, h⟩

/-- `m` is a position in the input, or the one reported for its end -/
def At (x : Ctx) (m : Marker) : Prop := Spec.Located x.input m ∨ m = Spec.streamEndMark x.input

theorem locate_byte (pre : List Byte) {c} (hc : c ≠ 10) : Spec.locate (pre ++ [c]) =
    ⟨(Spec.locate pre).pos + 1, (Spec.locate pre).col + 1, (Spec.locate pre).line⟩ := by
  have h1 : (c != 10) = true := by simpa using hc
  have h2 : (c == 10) = false := by simpa using hc
  simp [Spec.locate, h1, h2, List.count_append, List.count_cons]

theorem locate_nl (pre : List Byte) : Spec.locate (pre ++ [10]) =
    ⟨(Spec.locate pre).pos + 1, 1, (Spec.locate pre).line + 1⟩ := by
  simp [Spec.locate, List.count_append]

theorem locate_crnl (pre : List Byte) : Spec.locate (pre ++ [13, 10]) =
    ⟨(Spec.locate pre).pos + 2, 1, (Spec.locate pre).line + 1⟩ := by
  simp [Spec.locate, List.count_append]

/-- Facts about the reading position that every move preserves. -/
structure Ok (x : Ctx) (s : SSt) : Prop where
  fuel : s.src.rest.length + 4 ≤ x.cfg.fuel
  lone : LoneCR s.src.rest → x.hg
  nul : Spec.QuotedNul x.input → x.hg
  late : LateIndicator s.src.rest → x.pn
  version : x.cfg.debug = true → Spec.LongVersion x.input → x.pn
  err : ∀ m msg, At x m → x.E (.scanner m msg)
  len : s.src.len = x.input.length
  long : LongLine x.input → x.lg
  bar : x.lg → Spec.HasBlockIndicator x.input → x.hg
  loc : ∃ pre, x.input = pre ++ s.src.rest ∧ s.src.pos = pre.length ∧ s.mark = Spec.locate pre

theorem Mv.locate {a m b n} (h : Mv a m b n) {inp : List Byte}
    (hl : ∃ pre, inp = pre ++ a.rest ∧ a.pos = pre.length ∧ m = Spec.locate pre) :
    ∃ pre, inp = pre ++ b.rest ∧ b.pos = pre.length ∧ n = Spec.locate pre := by
  induction h with
  | refl => exact hl
  | @byte c r p l q k ln s' m' hc _ ih =>
    obtain ⟨pre, h1, h2, h3⟩ := hl
    refine ih ⟨pre ++ [c], by simp [h1], by simpa using h2, ?_⟩
    rw [locate_byte _ hc, ← h3]
  | @nl r p l q k ln s' m' _ ih =>
    obtain ⟨pre, h1, h2, h3⟩ := hl
    refine ih ⟨pre ++ [10], by simp [h1], by simpa using h2, ?_⟩
    rw [locate_nl, ← h3]
  | @crnl r p l q k ln s' m' _ ih =>
    obtain ⟨pre, h1, h2, h3⟩ := hl
    refine ih ⟨pre ++ [13, 10], by simp [h1], by simpa using h2, ?_⟩
    rw [locate_crnl, ← h3]

theorem Ok.mv {x s s'} (h : Ok x s) (a : Mv s.src s.mark s'.src s'.mark) : Ok x s' := by
  obtain ⟨w, h1, h2, h3, h4, h5, h6⟩ := a.split
  refine ⟨?_, ?_, ?_, ?_, ?_, h.err, ?_, h.long, h.bar, a.locate h.loc⟩
  · have := h.fuel; rw [h1] at this; simp at this; omega
  · intro k; exact h.lone (h1 ▸ k.app w)
  · exact h.nul
  · intro k; exact h.late (h1 ▸ k.app w)
  · exact h.version
  · rw [h3, h.len]

theorem Ok.adv {x s s'} (h : Ok x s) (a : Adv s s') : Ok x s' := h.mv a.mv

theorem Ok.pos {x s} (h : Ok x s) : s.src.pos + s.src.rest.length = x.input.length := by
  obtain ⟨pre, h1, h2, h3⟩ := h.loc
  rw [h1, h2]; simp

theorem Ok.mark {x s} (h : Ok x s) : s.mark.pos = s.src.pos := by
  obtain ⟨pre, h1, h2, h3⟩ := h.loc
  rw [h2, h3]; rfl

theorem Ok.at {x s} (h : Ok x s) : At x s.mark := by
  obtain ⟨pre, h1, h2, h3⟩ := h.loc
  exact .inl ⟨pre, _, h1, h3⟩

theorem Ok.here {x s} (h : Ok x s) {msg} : x.E (.scanner s.mark msg) := h.err _ _ h.at

theorem Ok.col {x s} (h : Ok x s) : s.mark.col ≤ 110 ∨ x.lg := by
  obtain ⟨pre, h1, h2, h3⟩ := h.loc
  rcases Nat.lt_or_ge (pre.reverse.takeWhile fun c => c != 10).length 110 with hl | hl
  · left; rw [h3]; simp only [Spec.locate]; omega
  · right
    apply h.long
    refine ⟨(pre.reverse.dropWhile fun c => c != 10).reverse, (pre.reverse.takeWhile fun c => c != 10).reverse,
      s.src.rest, ?_, ?_, by simpa using hl⟩
    · rw [h1, ← List.reverse_append, List.takeWhile_append_dropWhile, List.reverse_reverse]
    · intro hm
      have : ∀ l : List Byte, 10 ∉ l.takeWhile fun c => c != 10 := by
        intro l
        induction l with
        | nil => simp
        | cons d l ih =>
          simp only [List.takeWhile]
          split
          · rename_i hd; simp at hd; simp [ih]; omega
          · simp
      exact this _ (by simpa using hm)

theorem Ok.nopos {x s} (h : Ok x s) : s.mark.pos ≤ x.input.length := by
  have := h.pos; have := h.mark; omega

theorem At.le {x m} (h : At x m) : m.pos ≤ x.input.length := by
  rcases h with ⟨pre, post, h1, h2⟩ | h
  · rw [h1, h2]; simp [Spec.locate]
  · rw [h]; simp [Spec.streamEndMark]

/-- the rest of the input is valid UTF-8, provided the whole input was -/
def V (x : Ctx) (s : SSt) : Prop := x.U → Utf8.run .start s.src.rest = some .start

/-- text already collected, followed by the rest of the input, is valid UTF-8 -/
def VS (x : Ctx) (str : List Byte) (s : SSt) : Prop :=
  x.U → ∃ st, Utf8.run .start str = some st ∧ Utf8.run st s.src.rest = some .start

/-- collected text that is complete -/
def VT (x : Ctx) (str : List Byte) : Prop := x.U → Utf8.run .start str = some .start

theorem VS.start {x s str} (h : V x s) (ht : VT x str) : VS x str s := fun u => ⟨.start, ht u, h u⟩

theorem VS.push {x s s' str c} (h : VS x str s) (e : s.src.rest = c :: s'.src.rest) : VS x (str ++ [c]) s' := by
  intro u
  obtain ⟨st, h1, h2⟩ := h u
  rw [e] at h2
  simp only [Utf8.run] at h2
  cases hs : Utf8.step st c with
  | none => simp [hs] at h2
  | some st' =>
    simp only [hs, Option.bind] at h2
    exact ⟨st', by rw [Utf8.run_append, h1]; simp [Utf8.run, hs], h2⟩

theorem VS.stop {x s str} (h : VS x str s) (hc : ∀ c r, s.src.rest = c :: r → c < 128) : VT x str ∧ V x s := by
  constructor <;> intro u <;> obtain ⟨st, h1, h2⟩ := h u
  all_goals
    have := Utf8.split_at (w := str) (r := s.src.rest) (by rw [Utf8.run_append, h1]; exact h2) hc
    first | exact this.1 | exact this.2

theorem VT.app {x a b} (h : VT x a) (k : VT x b) : VT x (a ++ b) := by
  intro u; rw [Utf8.run_append, h u]; exact k u

theorem VT.nil {x} : VT x [] := fun _ => rfl
theorem VT.ascii {x w} (h : ∀ c ∈ w, c < 128) : VT x w := fun _ => Utf8.run_ascii h

theorem V.skip {x s s' w} (h : V x s) (e : s.src.rest = w ++ s'.src.rest) (hw : ∀ c ∈ w, c < 128) : V x s' := by
  intro u; have := h u; rw [e] at this; exact Utf8.drop_ascii this hw

theorem V.skip1 {x s s' c} (h : V x s) (e : s.src.rest = c :: s'.src.rest) (hw : c < 128) : V x s' :=
  h.skip (w := [c]) e (by simpa using hw)

theorem V.before {x s s' w} (h : V x s) (e : s.src.rest = w ++ s'.src.rest) (hc : ∀ c r, s'.src.rest = c :: r → c < 128) :
    V x s' := by
  intro u; have := h u; rw [e] at this; exact (Utf8.split_at this hc).2

theorem V.eq {x s s'} (h : V x s) (e : s'.src = s.src) : V x s' := by
  intro u; rw [e]; exact h u

theorem VS.eq {x s s' str} (h : VS x str s) (e : s'.src = s.src) : VS x str s' := by
  intro u; rw [e]; exact h u

/-! ## Peeking -/

theorem peek_cons {s : Src} {c} (h : s.peekz 0 = c) (hc : c ≠ 0) : ∃ r, s.rest = c :: r := by
  cases hr : s.rest with
  | nil => simp [Src.peekz, hr] at h; omega
  | cons d r => simp [Src.peekz, hr] at h; exact ⟨r, by rw [h]⟩

theorem peek_of {s : Src} {c r} (h : s.rest = c :: r) : s.peekz 0 = c := by simp [Src.peekz, h]
theorem peek1_of {s : Src} {c d r} (h : s.rest = c :: d :: r) : s.peekz 1 = d := by simp [Src.peekz, h]

theorem peek1_cons {s : Src} {c r d} (h : s.rest = c :: r) (hd : s.peekz 1 = d) (h0 : d ≠ 0) :
    ∃ r', s.rest = c :: d :: r' := by
  cases r with
  | nil => simp [Src.peekz, h] at hd; omega
  | cons e r => simp [Src.peekz, h] at hd; exact ⟨r, by rw [h, hd]⟩

theorem peek_ascii {s : Src} {p : Nat → Prop} (h : p (s.peekz 0)) (hp : ∀ c, p c → c < 128) :
    ∀ c r, s.rest = c :: r → c < 128 := by
  intro c r e; rw [peek_of e] at h; exact hp c h

theorem isBreak_iff {c} : isBreak c = true ↔ c = 13 ∨ c = 10 := by simp [isBreak]
theorem isBreakz_iff {c} : isBreakz c = true ↔ c = 13 ∨ c = 10 ∨ c = 0 := by simp [isBreakz, or_assoc]
theorem isBlank_iff {c} : isBlank c = true ↔ c = 32 ∨ c = 9 := by simp [isBlank]
theorem isBlankOrBreak_iff {c} : isBlankOrBreak c = true ↔ c = 32 ∨ c = 9 ∨ c = 13 ∨ c = 10 := by
  simp [isBlankOrBreak, or_assoc]
theorem isBlankOrBreakz_iff {c} : isBlankOrBreakz c = true ↔ c = 0 ∨ c = 32 ∨ c = 9 ∨ c = 13 ∨ c = 10 := by
  simp [isBlankOrBreakz, isBlank, isBreak, or_assoc]
theorem isFlow_iff {c} : isFlow c = true ↔ c = 44 ∨ c = 91 ∨ c = 93 ∨ c = 123 ∨ c = 125 := by
  simp [isFlow, or_assoc]

end Verif.Scanner
