import Verif.Lemmas.ScanRun
import Verif.Lemmas.ScanEval
/-!
# Computations that do not return
-/
namespace Verif.Scanner
open Verif Verif.CharUtils Verif.Source

/-- the computation does not return -/
def Hangs {α} (m : SM α) (s : SSt) : Prop := (m s).1 = .hang

theorem Hangs.bind {α β} {m : SM α} {f : α → SM β} {s} (h : Hangs m s) : Hangs (m >>= f) s := by
  simp only [Hangs, Bind.bind] at h ⊢
  revert h
  rcases m s with ⟨_ | _ | _ | _, s1⟩ <;> simp

theorem Hangs.step {α β} {m : SM α} {f : α → SM β} {s} {a s1} (e : m s = (.ok a, s1)) (h : Hangs (f a) s1) : Hangs (m >>= f) s := by
  simp only [Hangs, Bind.bind] at h ⊢
  rw [e]
  exact h

theorem Hangs.loop1 {σ α} {body : σ → SM (Loop σ α)} {n a s} (h : Hangs (body a) s) : Hangs (loopM body n a) s := by
  cases n with
  | zero => rfl
  | succ n => exact Hangs.bind h

theorem Hangs.loopS {σ α} {body : σ → SM (Loop σ α)} {n a s b s1} (e : body a s = (.ok (.next b), s1))
    (h : ∀ n, Hangs (loopM body n b) s1) : Hangs (loopM body n a) s := by
  cases n with
  | zero => rfl
  | succ n => exact Hangs.step e (h n)

/-- an iteration that changes nothing is repeated for ever -/
theorem Hangs.stuck {σ α} {body : σ → SM (Loop σ α)} {a s} (e : body a s = (.ok (.next a), s)) : ∀ n, Hangs (loopM body n a) s := by
  intro n
  induction n with
  | zero => rfl
  | succ n ih => exact Hangs.step e ih

theorem hangs_next {cfg s} (h : s.over = (false, false, none)) (ha : s.tokensAvailable = false) (ht : s.tokens = [])
    (hn : Hangs (fetchNextToken cfg) s) : (next cfg s).1 = .hang := by
  simp only [SSt.over, Prod.mk.injEq] at h
  have h1 : Hangs (nextToken cfg) s := by
    unfold nextToken
    refine Hangs.step rfl ?_
    simp only [h.1, Bool.false_eq_true, if_false]
    refine Hangs.step rfl ?_
    simp only [ha]
    refine Hangs.bind ?_
    show Hangs (fetchMoreTokens cfg) s
    unfold fetchMoreTokens
    refine Hangs.bind (Hangs.loop1 ?_)
    unfold fetchMoreBody
    refine Hangs.step rfl ?_
    simp only [ht, List.isEmpty_nil, if_true]
    exact Hangs.bind hn
  unfold next
  rw [h.2.1, h.2.2]
  simp only [Hangs] at h1
  revert h1
  rcases nextToken cfg s with ⟨_ | _ | _ | _, s1⟩ <;> simp

/-- the state after `StreamStart` has been handed out -/
def started (input : List Byte) : SSt :=
  { Scanner.new input with streamStartProduced := true, tokensParsed := 1, simpleKeys := [SimpleKey.new ⟨0, 0, 0⟩], indent := 0 }

theorem skip_cr {s : SSt} {r} (hr : s.src.rest = 13 :: r) (hn : r.head? ≠ some 10) (hf : s.flowLevel = 0) :
    skipToNextTokenBody () s = (.ok (.next ()), { s with simpleKeyAllowed := true }) := by
  have h0 : s.src.peekz 0 = 13 := by simp [Src.peekz, hr]
  have h1 : s.src.peekz 1 ≠ 10 := by
    cases r with
    | nil => simp [Src.peekz, hr]
    | cons c r => simp [Src.peekz, hr] at hn ⊢; omega
  simp [skipToNextTokenBody, bind, peekz, gets, h0, skipLinebreak, upd, h1, hf, when, setAllowed, pure]

theorem hangs_cr {cfg s r} (hs : s.streamStartProduced = true) (hr : s.src.rest = 13 :: r) (hn : r.head? ≠ some 10)
    (hf : s.flowLevel = 0) : Hangs (fetchNextToken cfg) s := by
  unfold fetchNextToken
  refine Hangs.step rfl ?_
  simp only [hs, if_true]
  refine Hangs.bind ?_
  unfold skipToNextToken
  refine Hangs.loopS (skip_cr hr hn hf) ?_
  refine Hangs.stuck ?_
  have := skip_cr (s := { s with simpleKeyAllowed := true }) hr hn hf
  simpa using this

theorem next_new {cfg : Cfg} {input} (hf : 2 ≤ cfg.fuel) :
    next cfg (Scanner.new input) = (.ok (some ⟨⟨⟨0, 1, 1⟩, ⟨0, 1, 1⟩⟩, .streamStart⟩), started input) := by
  obtain ⟨n, d⟩ := cfg
  obtain ⟨m, rfl⟩ : ∃ m, n = m + 2 := ⟨n - 2, by simp at hf; omega⟩
  rfl

theorem scan_two_hang {cfg : Cfg} {input} (h : Hangs (fetchNextToken cfg) (started input)) (hf : 2 ≤ cfg.fuel) :
    Spec.scanInput cfg input 2 = ([⟨⟨⟨0, 1, 1⟩, ⟨0, 1, 1⟩⟩, .streamStart⟩], .hung) := by
  have h2 := hangs_next (cfg := cfg) (s := started input) rfl rfl rfl h
  unfold Spec.scanInput
  simp only [Spec.scan, next_new hf]
  revert h2
  rcases next cfg (started input) with ⟨_ | _ | _ | _, s1⟩ <;> simp

theorem hangs_nul {m d rest} : Hangs (fetchNextToken ⟨m + 2, d⟩) (started (34 :: 0 :: rest)) := by
  unfold fetchNextToken
  refine Hangs.step (a := true) rfl ?_
  refine Hangs.step (a := ()) rfl ?_
  refine Hangs.step (a := ()) rfl ?_
  refine Hangs.step rfl ?_
  refine Hangs.step (a := ()) rfl ?_
  refine Hangs.step (a := false) rfl ?_
  show Hangs (fetchAtToken _) _
  unfold fetchAtToken
  refine Hangs.step rfl ?_
  refine Hangs.step (a := false) rfl ?_
  refine Hangs.step (a := false) rfl ?_
  refine Hangs.step (a := false) rfl ?_
  simp only [Bool.false_eq_true, if_false]
  refine Hangs.step (a := false) rfl ?_
  refine Hangs.step (a := ()) rfl ?_
  unfold fetchMain
  refine Hangs.step (a := 34) rfl ?_
  refine Hangs.step (a := 0) rfl ?_
  refine Hangs.step (a := 0) rfl ?_
  refine Hangs.step (a := true) rfl ?_
  show Hangs (fetchFlowScalar _ false) _
  unfold fetchFlowScalar
  refine Hangs.step (a := ()) rfl ?_
  refine Hangs.step (a := ()) rfl ?_
  refine Hangs.bind ?_
  unfold scanFlowScalar
  refine Hangs.step rfl ?_
  refine Hangs.step (a := ()) rfl ?_
  refine Hangs.bind ?_
  exact Hangs.stuck rfl _

/-- after `n` single byte characters have been skipped -/
def skipped (s : SSt) (n : Nat) (r : List Byte) : SSt :=
  { s with src := ⟨r, s.src.pos + n, s.src.len⟩, mark := ⟨s.mark.pos + n, s.mark.col + n, s.mark.line⟩ }

theorem spaces_run {n r} (hr : r.head? ≠ some 32) : ∀ {k s}, s.src.rest = List.replicate n 32 ++ r → n < k →
    loopM spacesBody k () s = (.ok (), skipped s n r) := by
  induction n with
  | zero =>
    intro k s h hk
    obtain ⟨k, rfl⟩ : ∃ j, k = j + 1 := ⟨k - 1, by omega⟩
    have h0 : s.src.peekz 0 ≠ 32 := by
      cases r with
      | nil => simp [Src.peekz, h]
      | cons c r => simp [Src.peekz, h] at hr ⊢; omega
    simp at h
    rw [loop_done (b := ()) (s1 := s) (by unfold spacesBody; ev [h0])]
    simp [skipped, ← h]
  | succ n ih =>
    intro k s h hk
    obtain ⟨k, rfl⟩ : ∃ j, k = j + 1 := ⟨k - 1, by omega⟩
    have h0 : s.src.peekz 0 = 32 := by simp [Src.peekz, h, List.replicate_succ]
    have := ih (k := k) (s := { s with src := s.src.skip 1, mark := { s.mark with pos := s.mark.pos + 1, col := s.mark.col + 1 } })
      (by simp [Src.skip, h, List.replicate_succ]) (by omega)
    rw [loop_next (b := ()) (s1 := { s with src := s.src.skip 1, mark := { s.mark with pos := s.mark.pos + 1, col := s.mark.col + 1 } })
      (by unfold spacesBody skipBlank; ev [h0]), this]
    simp only [skipped, Src.skip, Nat.add_assoc, Nat.add_comm 1]

/-- the loop for deep indentation makes no progress at the end of the input -/
theorem deep_stuck {m d i s} (hr : s.src.rest = []) (hc : s.mark.col ≠ i) :
    deepIndentBody ⟨m + 2, d⟩ i () s = (.ok (.next ()), s) := by
  unfold deepIndentBody
  have h0 : s.src.peekz 0 = 0 := by simp [Src.peekz, hr]
  rw [bind_run (a := ()) (s1 := s) (loop_done (by unfold indentSpacesBody; ev [h0]; simp))]
  ev []
  rw [if_neg (by simp [Src.bufIsEmpty, hr, hc])]

/-- the part of `scan_block_scalar` after the header -/
theorem hangs_deep_tail {m d n s start ch cb} (hm : n + 2 ≤ m + 2) (hn : 125 ≤ n) (hr : s.src.rest = List.replicate n 32 ++ [120, 10])
    (hc : s.mark.col = 1) (hi : s.indent = 0) : Hangs (do
      let c ← peekz 0
      failIf (c == b%'\t') start "a block scalar content cannot start with a tab"
      let r ← blockFindIndent ⟨m + 2, d⟩ 0
      let eof ← atEof
      if eof then do
        let m ← getMark
        push ⟨start, m⟩ (.scalar (if true then .literal else .folded) (blockEmpty ch (m.line == start.line) cb r.2))
      else blockContent ⟨m + 2, d⟩ true ch r.1 r.2) s := by
  have h0 : s.src.peekz 0 = 32 := by
    obtain ⟨n, rfl⟩ : ∃ j, n = j + 1 := ⟨n - 1, by omega⟩
    simp [Src.peekz, hr, List.replicate_succ]
  refine Hangs.step (a := 32) (s1 := s) (by simp only [peekz, gets, h0]) ?_
  refine Hangs.step (a := ()) (s1 := s) rfl ?_
  refine Hangs.step (a := (n + 1, [])) (s1 := skipped s n [120, 10]) ?_ ?_
  · unfold blockFindIndent skipFirstLineIndent
    ev [hi]
    simp only [Nat.lt_irrefl, if_false, if_true]
    rw [bind_run (a := (n + 1, [])) (s1 := skipped s n [120, 10])]
    · ev [skipped, hi]; simp
    · refine loop_done ?_
      unfold firstLineBody
      rw [bind_run (spaces_run (by simp) hr (show n < m + 2 by omega))]
      ev [skipped, hc]
      have hb : isBreak (Src.peekz ⟨[120, 10], s.src.pos + n, s.src.len⟩ 0) = false := rfl
      rw [hb, if_pos (show 1 + n > 0 by omega), Nat.add_comm 1 n]
      rfl
  · refine Hangs.step (a := false) (s1 := skipped s n [120, 10]) rfl ?_
    unfold blockContent
    simp only [Bool.false_eq_true, if_false]
    refine Hangs.step (a := false) (s1 := skipped s n [120, 10]) (by simp [gets, skipped, hc]; omega) ?_
    refine Hangs.step rfl ?_
    refine Hangs.step (a := ()) rfl ?_
    refine Hangs.bind (Hangs.loop1 ?_)
    unfold blockBody
    refine Hangs.step (a := true) (s1 := skipped s n [120, 10]) ?_ ?_
    · simp [gets, skipped, hc, Src.bufIsEmpty]; omega
    simp only [if_true]
    refine Hangs.step (a := 120) (s1 := skipped s n [120, 10]) rfl ?_
    refine Hangs.step (a := [120]) (s1 := skipped s (n + 1) [10]) ?_ ?_
    · unfold contentLine
      rw [bind_run (a := [120]) (s1 := skipped s (n + 1) [10])]
      · ev [skipped]; simp [Src.bufIsEmpty]
      · rfl
    refine Hangs.step (a := false) (s1 := skipped s (n + 1) [10]) rfl ?_
    simp only [Bool.false_eq_true, if_false]
    refine Hangs.step (a := [10]) (s1 := { skipped s (n + 2) [] with
      mark := ⟨s.mark.pos + (n + 2), 1, s.mark.line + 1⟩, leadingWhitespace := true }) rfl ?_
    refine Hangs.bind ?_
    unfold skipBlockIndent
    refine Hangs.loop1 ?_
    unfold blockIndentBody blockIndentSpaces
    refine Hangs.bind ?_
    rw [if_neg (by simp [bufMaxLen]; omega)]
    exact Hangs.stuck (deep_stuck rfl (by simp; omega)) _

theorem hangs_deep {m d n} (hm : n + 2 ≤ m) (hn : 125 ≤ n) :
    Hangs (fetchNextToken ⟨m, d⟩) (started (124 :: 10 :: (List.replicate n 32 ++ [120, 10]))) := by
  obtain ⟨m, rfl⟩ : ∃ j, m = j + 2 := ⟨m - 2, by omega⟩
  unfold fetchNextToken
  refine Hangs.step (a := true) rfl ?_
  refine Hangs.step (a := ()) rfl ?_
  refine Hangs.step (a := ()) rfl ?_
  refine Hangs.step rfl ?_
  refine Hangs.step (a := ()) rfl ?_
  refine Hangs.step (a := false) rfl ?_
  show Hangs (fetchAtToken _) _
  unfold fetchAtToken
  refine Hangs.step rfl ?_
  refine Hangs.step (a := false) rfl ?_
  refine Hangs.step (a := false) rfl ?_
  refine Hangs.step (a := false) rfl ?_
  simp only [Bool.false_eq_true, if_false]
  refine Hangs.step (a := false) rfl ?_
  refine Hangs.step (a := ()) rfl ?_
  unfold fetchMain
  refine Hangs.step (a := 124) rfl ?_
  refine Hangs.step (a := 10) rfl ?_
  refine Hangs.step (a := 0) rfl ?_
  refine Hangs.step (a := true) rfl ?_
  show Hangs (fetchBlockScalar _ true) _
  unfold fetchBlockScalar
  refine Hangs.step (a := ()) rfl ?_
  refine Hangs.step (a := ()) rfl ?_
  unfold scanBlockScalar
  refine Hangs.step rfl ?_
  refine Hangs.step (a := ()) rfl ?_
  refine Hangs.step (a := ()) rfl ?_
  refine Hangs.step (a := (.clip, 0)) rfl ?_
  refine Hangs.step rfl ?_
  refine Hangs.step (a := 10) rfl ?_
  refine Hangs.step (a := ()) rfl ?_
  refine Hangs.step (a := [10]) rfl ?_
  exact hangs_deep_tail hm hn rfl rfl rfl

end Verif.Scanner
