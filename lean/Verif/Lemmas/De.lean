import Verif.Spec.Typed
import Verif.Lemmas.Scalar
/-!
# Lemmas for C29
-/
namespace Verif.De
open Verif Verif.Parser Verif.ParserIter Verif.Spec
variable {z q : Bool}

theorem bind_ok {α β : Type} {m : DM α} {f : α → DM β} {s a s1} (h : m s = .ok (a, s1)) : (m >>= f) s = f a s1 := by
  show dbind m f s = _
  unfold dbind; rw [h]

theorem bind_inv {α β : Type} {m : DM α} {f : α → DM β} {s r} (h : (m >>= f) s = .ok r) : ∃ a s1, m s = .ok (a, s1) ∧ f a s1 = .ok r := by
  change dbind m f s = _ at h
  unfold dbind at h
  cases hm : m s with
  | ok x => rw [hm] at h; exact ⟨x.1, x.2, rfl, h⟩
  | error e => rw [hm] at h; simp at h

theorem bind_err {α β : Type} {m : DM α} {f : α → DM β} {s e} (h : m s = .error e) : (m >>= f) s = .error e := by
  show dbind m f s = _
  unfold dbind; rw [h]

theorem pure_run {α : Type} (a : α) (s : DSt) : (pure a : DM α) s = .ok (a, s) := rfl

theorem fail_run {α : Type} (e : DErr) (s : DSt) : (dfail e : DM α) s = .error e := rfl

theorem skip_run (s : DSt) : skip s = .ok ((), { s with peeked := false }) := rfl

theorem last_run (s : DSt) : lastEvent s = .ok (s.last, s) := rfl

/-- the first event is past -/
def Later (it : ItSt) : Prop := it.state ≠ .streamStart

theorem processDoc_later (n : Nat) (it : ItSt) (h : Later it) : ∀ r it', processDoc n it = (r, it') → Later it' ∧ r ≠ .ok .docStart := by
  induction n generalizing it with
  | zero =>
    intro r it' hr
    simp only [processDoc, Prod.mk.injEq] at hr
    obtain ⟨rfl, rfl⟩ := hr
    exact ⟨h, by simp⟩
  | succ n ih =>
    intro r it' hr
    simp only [processDoc, withEvent] at hr
    cases hn : nextEventImpl it.p with
    | mk x p =>
      rw [hn] at hr
      cases x with
      | ok v =>
        obtain ⟨ev, sp⟩ := v
        cases ev <;> simp only [Prod.mk.injEq] at hr <;>
          first
          | exact ih _ (by exact h) _ _ hr
          | (obtain ⟨rfl, rfl⟩ := hr; exact ⟨by first | exact h | simp [Later], by simp⟩)
      | _ =>
        simp only [Prod.mk.injEq] at hr
        obtain ⟨rfl, rfl⟩ := hr
        exact ⟨h, by simp⟩

theorem finish_later (it : ItSt) (h : Later it) : ∀ r it', finishDocument it = (r, it') → Later it' ∧ r ≠ .ok .docStart := by
  intro r it' hr
  simp only [finishDocument, withEvent] at hr
  cases hn : nextEventImpl it.p with
  | mk x p =>
    rw [hn] at hr
    cases x with
    | ok v =>
      obtain ⟨ev, sp⟩ := v
      simp only at hr
      split at hr <;> (simp only [Prod.mk.injEq] at hr; obtain ⟨rfl, rfl⟩ := hr; exact ⟨h, by simp⟩)
    | _ =>
      simp only [Prod.mk.injEq] at hr
      obtain ⟨rfl, rfl⟩ := hr
      exact ⟨h, by simp⟩

theorem next_later {it e it'} (h : Later it) (hn : ParserIter.next it = (.ok (some e), it')) : Later it' ∧ e ≠ .docStart := by
  unfold ParserIter.next at hn
  have key : ∀ x : Res YamEvent × ItSt, (∀ r it', x = (r, it') → Later it' ∧ r ≠ .ok .docStart) →
      (match x with
      | (.err e, it) => (.ok none, { it with error := some e })
      | (.ok .streamEnd, it) => (.ok none, it)
      | (.ok r, it) => (.ok (some r), it)
      | (.panic, it) => (.panic, it)
      | (.hang, it) => ((.hang : Res (Option YamEvent)), it)) = (.ok (some e), it') → Later it' ∧ e ≠ .docStart := by
    intro x hx heq
    obtain ⟨r, i⟩ := x
    have := hx r i rfl
    cases r with
    | ok v =>
      cases v <;> simp only [Prod.mk.injEq, Res.ok.injEq, Option.some.injEq, reduceCtorEq, false_and] at heq <;>
        (obtain ⟨rfl, rfl⟩ := heq; exact ⟨this.1, fun hh => this.2 (by rw [hh])⟩)
    | _ => simp at heq
  cases hs : it.state with
  | streamStart => exact absurd hs h
  | inDocument => rw [hs] at hn; exact key _ (processDoc_later _ _ h) hn
  | endDocument => rw [hs] at hn; exact key _ (finish_later _ h) hn

theorem feeds_later {it evs it'} (h : Later it) (hf : Feeds it evs it') : Later it' ∧ .docStart ∉ evs := by
  induction hf with
  | nil => exact ⟨h, by simp⟩
  | cons hn _ ih =>
    have := next_later h hn
    obtain ⟨h1, h2⟩ := ih this.1
    exact ⟨h1, by simpa using ⟨fun hh => this.2 hh.symm, h2⟩⟩

theorem feeds_append {it a b it'} : Feeds it (a ++ b) it' ↔ ∃ it1, Feeds it a it1 ∧ Feeds it1 b it' := by
  induction a generalizing it with
  | nil => simp only [List.nil_append]; exact ⟨fun h => ⟨it, .nil, h⟩, fun ⟨it1, h1, h2⟩ => by cases h1; exact h2⟩
  | cons e es ih =>
    constructor
    · intro h
      cases h with
      | cons hn hr =>
        obtain ⟨it2, h1, h2⟩ := ih.1 hr
        exact ⟨it2, .cons hn h1, h2⟩
    · intro ⟨it1, h1, h2⟩
      cases h1 with
      | cons hn hr => exact .cons hn (ih.2 ⟨it1, hr, h2⟩)

/-- the events to come, the peeked one included -/
def Ahead (s : DSt) (evs : List YamEvent) (it' : ItSt) : Prop :=
  if s.peeked then ∃ es, evs = s.last :: es ∧ Feeds s.it es it' else Feeds s.it evs it'

/-- inside the document -/
def Ready (s : DSt) : Prop := Later s.it ∧ (s.peeked = true → s.last ≠ .docStart)

theorem ahead_fresh {s evs it'} (h : s.peeked = false) : Ahead s evs it' ↔ Feeds s.it evs it' := by
  unfold Ahead; rw [h]; simp

theorem nextEl_fresh {it l e es it'} (h : Feeds it (e :: es) it') : ∃ it1, nextEl ⟨it, l, false⟩ = .ok (some e, ⟨it1, e, true⟩) ∧ Feeds it1 es it' := by
  cases h with
  | cons hn hr =>
    refine ⟨_, ?_, hr⟩
    unfold nextEl
    simp [hn]

theorem nextEl_peeked (it e) : nextEl ⟨it, e, true⟩ = .ok (some e, ⟨it, e, false⟩) := by
  simp [nextEl]

theorem skipDoc_tail {e : YamEvent} (hne : e ≠ .docStart) (s : DSt) :
    (match some e with
      | some .docStart => do
        skip
        nextEl
      | ev => pure ev : DM (Option YamEvent)) s = .ok (some e, s) := by
  cases e <;> first | exact absurd rfl hne | rfl

theorem skipDoc_cons {s e es it'} (hr : Ready s) (h : Ahead s (e :: es) it') : ∃ it1, skipDoc s = .ok (some e, ⟨it1, e, !s.peeked⟩) ∧
    Feeds it1 es it' ∧ Later it1 ∧ e ≠ .docStart := by
  obtain ⟨it, l, p⟩ := s
  cases p with
  | true =>
    obtain ⟨es', h1, h2⟩ := h
    simp only [List.cons.injEq] at h1
    obtain ⟨rfl, rfl⟩ := h1
    have hne : e ≠ .docStart := hr.2 rfl
    refine ⟨it, ?_, h2, hr.1, hne⟩
    unfold skipDoc
    rw [bind_ok (nextEl_peeked it e)]
    exact skipDoc_tail hne _
  | false =>
    rw [ahead_fresh rfl] at h
    have hne : e ≠ .docStart := fun hh => (feeds_later hr.1 h).2 (by simp [hh])
    obtain ⟨it1, h1, h2⟩ := nextEl_fresh (l := l) h
    have hl : Later it1 := by
      cases h with
      | cons hn _ =>
        have := (next_later hr.1 hn).1
        unfold nextEl at h1
        simp [hn] at h1
        rw [h1] at this; exact this
    refine ⟨it1, ?_, h2, hl, hne⟩
    unfold skipDoc
    rw [bind_ok h1]
    exact skipDoc_tail hne _

/-- the iterator gives nothing more -/
def Stuck (it : ItSt) : Prop := ∀ e it1, ParserIter.next it ≠ (.ok (some e), it1)

/-- The events ahead reach the end of the document or, when `q` allows it, they are all there are. -/
def Enough (q : Bool) (L : List YamEvent) (it' : ItSt) : Prop := .docEnd ∈ L ∨ (q = true ∧ Stuck it')

theorem Enough.tail {e L it'} (h : Enough q (e :: L) it') (he : e ≠ .docEnd) : Enough q L it' := by
  rcases h with h | h
  · exact .inl (by simpa [he.symm] using h)
  · exact .inr h

theorem Enough.nil {it'} (h : Enough q [] it') : q = true ∧ Stuck it' := h.resolve_left (by simp)

theorem nextEl_stuck {it l} (h : Stuck it) : (∃ s, nextEl ⟨it, l, false⟩ = .ok (none, s)) ∨ ∃ e, nextEl ⟨it, l, false⟩ = .error e := by
  unfold nextEl
  cases hn : ParserIter.next it with
  | mk r it1 =>
    cases r with
    | ok o =>
      cases o with
      | some e => exact absurd hn (h e it1)
      | none => exact .inl ⟨_, by simp [hn]; rfl⟩
    | _ => exact .inr ⟨_, by simp [hn]; rfl⟩

theorem ahead_nil {s it'} (h : Ahead s [] it') : s.peeked = false ∧ s.it = it' := by
  unfold Ahead at h
  split at h
  · obtain ⟨_, h, _⟩ := h; simp at h
  · cases h; exact ⟨by simp_all, rfl⟩

theorem skipDoc_stuck {s it'} (h : Ahead s [] it') (hs : Stuck it') : (∃ s1, skipDoc s = .ok (none, s1)) ∨ ∃ e, skipDoc s = .error e := by
  obtain ⟨it, l, p⟩ := s
  obtain ⟨h1, h2⟩ := ahead_nil h
  simp only at h1 h2; subst h1 h2
  unfold skipDoc
  rcases nextEl_stuck (l := l) hs with ⟨s1, h3⟩ | ⟨e, h3⟩
  · exact .inl ⟨s1, by rw [bind_ok h3]; rfl⟩
  · exact .inr ⟨e, by show (nextEl >>= _) _ = _; rw [bind_err h3]⟩

theorem skipDoc_end {α : Type} {k : Option YamEvent → DM α} {s it' r} (h : Ahead s [] it') (hs : Stuck it') (hk : ∀ s, k none s ≠ .ok r) :
    (skipDoc >>= k) s ≠ .ok r := by
  rcases skipDoc_stuck h hs with ⟨s1, h1⟩ | ⟨e, h1⟩
  · rw [bind_ok h1]; exact hk _
  · rw [bind_err h1]; simp

/-- The computation reads exactly the events of one item of `R` and returns its value. `p` says whether the first event has been peeked at. -/
structure Exact {α : Type} (z q : Bool) (n : Nat) (p : Bool) (m : DM α) (R : List YamEvent → α → Prop) : Prop where
  complete : ∀ s evs it' v, Ready s → s.peeked = p → Ahead s evs it' → R evs v → evs.length ≤ n →
    ∃ l, evs.getLast? = some l ∧ m s = .ok (v, ⟨it', l, false⟩)
  sound : z = true → ∀ s L it' v s', Ready s → s.peeked = p → Ahead s L it' → Enough q L it' → m s = .ok (v, s') →
    ∃ evs rest, L = evs ++ rest ∧ R evs v ∧ Feeds s'.it rest it' ∧ Enough q rest it' ∧ s'.peeked = false ∧ evs.getLast? = some s'.last ∧ Later s'.it

/-- The computation starts by looking at the next event. -/
theorem Exact.of_scalar {α : Type} {n p} {m : DM α} {R : List YamEvent → α → Prop} (ok : ScalarValue → α → Prop)
    (hR : ∀ evs v, R evs v ↔ ∃ x, evs = [.scalar x] ∧ ok x v)
    (k : Option YamEvent → DM α) (hm : m = skipDoc >>= k)
    (hk : ∀ x s v, ok x v → k (some (.scalar x)) s = .ok (v, { s with peeked := false }))
    (hs : ∀ x s v s', k (some (.scalar x)) s = .ok (v, s') → ok x v ∧ s' = { s with peeked := false })
    (hno : ∀ e s r, (∀ x, e ≠ .scalar x) → k (some e) s ≠ .ok r) (hend : ∀ s r, k none s ≠ .ok r) : Exact z q n p m R where
  complete := by
    intro s evs it' v hr _ ha hR' _
    obtain ⟨x, rfl, hx⟩ := (hR _ _).1 hR'
    obtain ⟨it1, h1, h2, _⟩ := skipDoc_cons hr ha
    cases h2
    refine ⟨.scalar x, by simp, ?_⟩
    rw [hm, bind_ok h1, hk _ _ _ hx]
  sound := by
    intro hz; subst hz; intro s L it' v s' hr _ ha hd h
    cases L with
    | nil => rw [hm] at h; exact absurd h (skipDoc_end ha hd.nil.2 fun s => hend s _)
    | cons e es =>
      obtain ⟨it1, h1, h2, h3, _⟩ := skipDoc_cons hr ha
      rw [hm, bind_ok h1] at h
      cases e with
      | scalar x =>
        obtain ⟨h4, rfl⟩ := hs _ _ _ _ h
        exact ⟨[.scalar x], es, rfl, (hR _ _).2 ⟨x, rfl, h4⟩, h2, hd.tail (by simp), rfl, by simp, h3⟩
      | _ => exact absurd h (hno _ _ _ (by simp))

/-! ## Integers -/

theorem accDigits_pos (t : IntTy) (s : List Nat) (acc : Nat) (hacc : (acc : Int) ≤ t.max) (r : Int) :
    accDigits t true acc s = some r ↔ ∃ v : Nat, Scalar.valFrom 10 acc s = some v ∧ r = v ∧ (v : Int) ≤ t.max := by
  have hmin : t.min ≤ 0 := by cases t <;> decide
  induction s generalizing acc with
  | nil =>
    simp only [accDigits, Scalar.valFrom, List.foldl_nil, Option.some.injEq]
    constructor
    · rintro rfl; exact ⟨acc, rfl, rfl, hacc⟩
    · rintro ⟨v, rfl, rfl, _⟩; rfl
  | cons c cs ih =>
    rw [Scalar.valFrom_cons, accDigits, Scalar.toDigit_eq _ (by decide)]
    cases hd : Core.digit 10 c with
    | none => simp
    | some d =>
      simp only [Option.bind_some, if_true]
      have e : ((acc : Int) * 10 + (d : Int)) = ((acc * 10 + d : Nat) : Int) := by push_cast; rfl
      by_cases hfit : ((acc * 10 + d : Nat) : Int) ≤ t.max
      · rw [if_pos, if_pos, e]
        · exact ih _ hfit
        · rw [e]; simp only [IntTy.fits, Bool.and_eq_true, decide_eq_true_eq]; omega
        · simp only [IntTy.fits, Bool.and_eq_true, decide_eq_true_eq]; omega
      · have hnone : ¬ ∃ v : Nat, Scalar.valFrom 10 (acc * 10 + d) cs = some v ∧ r = v ∧ (v : Int) ≤ t.max := by
          rintro ⟨v, hv, -, hlt⟩
          have := Scalar.valFrom_ge _ _ (by decide) _ _ hv
          omega
        rw [iff_false_right hnone]
        split
        · rw [if_neg]
          · simp
          · rw [e]; simp only [IntTy.fits, Bool.and_eq_true, decide_eq_true_eq]; omega
        · simp

theorem accDigits_neg (t : IntTy) (s : List Nat) (acc : Nat) (hacc : t.min ≤ -(acc : Int)) (r : Int) :
    accDigits t false (-(acc : Int)) s = some r ↔ ∃ v : Nat, Scalar.valFrom 10 acc s = some v ∧ r = -(v : Int) ∧ t.min ≤ -(v : Int) := by
  have hmax : 0 ≤ t.max := by cases t <;> decide
  induction s generalizing acc with
  | nil =>
    simp only [accDigits, Scalar.valFrom, List.foldl_nil, Option.some.injEq]
    constructor
    · rintro rfl; exact ⟨acc, rfl, rfl, hacc⟩
    · rintro ⟨v, rfl, rfl, _⟩; rfl
  | cons c cs ih =>
    rw [Scalar.valFrom_cons, accDigits, Scalar.toDigit_eq _ (by decide)]
    cases hd : Core.digit 10 c with
    | none => simp
    | some d =>
      simp only [Option.bind_some, Bool.false_eq_true, if_false]
      have e : (-(acc : Int) * 10 - (d : Int)) = -((acc * 10 + d : Nat) : Int) := by push_cast; omega
      by_cases hfit : t.min ≤ -((acc * 10 + d : Nat) : Int)
      · rw [if_pos, if_pos, e]
        · exact ih _ hfit
        · rw [e]; simp only [IntTy.fits, Bool.and_eq_true, decide_eq_true_eq]; omega
        · simp only [IntTy.fits, Bool.and_eq_true, decide_eq_true_eq]; omega
      · have hnone : ¬ ∃ v : Nat, Scalar.valFrom 10 (acc * 10 + d) cs = some v ∧ r = -(v : Int) ∧ t.min ≤ -(v : Int) := by
          rintro ⟨v, hv, -, hlt⟩
          have := Scalar.valFrom_ge _ _ (by decide) _ _ hv
          omega
        rw [iff_false_right hnone]
        split
        · rw [if_neg]
          · simp
          · rw [e]; simp only [IntTy.fits, Bool.and_eq_true, decide_eq_true_eq]; omega
        · simp

theorem parseInt_iff (t : IntTy) (s : List Byte) (i : Int) :
    parseInt t s = some i ↔ DecimalText t.signed s i ∧ t.min ≤ i ∧ i ≤ t.max := by
  have hmin : t.min ≤ 0 := by cases t <;> decide
  have hmax : 0 ≤ t.max := by cases t <;> decide
  unfold parseInt
  cases s with
  | nil =>
    simp only [reduceCtorEq, false_iff]
    rintro ⟨h, -⟩
    cases h with
    | dec h => exact h.1 rfl
  | cons c rest =>
    have p := fun l => accDigits_pos t l 0 (by simpa using hmax) i
    have n := accDigits_neg t rest 0 (by simpa using hmin) i
    simp only [Int.natCast_zero, Int.neg_zero] at n p
    dsimp only
    by_cases hc : c = 43
    · subst hc
      rw [if_pos rfl]
      by_cases hr : rest = []
      · subst hr
        simp only [if_true, reduceCtorEq, false_iff]
        rintro ⟨h, -⟩
        cases h with
        | dec h => exact (Scalar.isNumeral_not_sign h).1 rfl
        | plus h => exact h.1 rfl
      · rw [if_neg hr, p]
        constructor
        · rintro ⟨v, hv, rfl, hlt⟩
          exact ⟨.plus ⟨hr, hv⟩, by omega, hlt⟩
        · rintro ⟨h, h1, h2⟩
          cases h with
          | dec h => exact absurd rfl (Scalar.isNumeral_not_sign h).1
          | plus h => exact ⟨_, h.2, rfl, h2⟩
    · rw [if_neg hc]
      by_cases hc2 : c = 45
      · subst hc2
        rw [if_pos rfl]
        by_cases hr : rest = [] ∨ t.signed = false
        · rw [if_pos hr]
          simp only [reduceCtorEq, false_iff]
          rintro ⟨h, -⟩
          cases h with
          | dec h => exact (Scalar.isNumeral_not_sign h).2 rfl
          | minus hs h => rcases hr with rfl | hr
                          · exact h.1 rfl
                          · rw [hs] at hr; simp at hr
        · simp only [not_or, Bool.not_eq_false] at hr
          rw [if_neg (by simp [hr.1, hr.2]), n]
          constructor
          · rintro ⟨v, hv, rfl, hlt⟩
            exact ⟨.minus hr.2 ⟨hr.1, hv⟩, hlt, by omega⟩
          · rintro ⟨h, h1, h2⟩
            cases h with
            | dec h => exact absurd rfl (Scalar.isNumeral_not_sign h).2
            | minus hs h => exact ⟨_, h.2, rfl, h1⟩
      · rw [if_neg hc2, p]
        constructor
        · rintro ⟨v, hv, rfl, hlt⟩
          exact ⟨.dec ⟨by simp, hv⟩, by omega, hlt⟩
        · rintro ⟨h, h1, h2⟩
          cases h with
          | dec h => exact ⟨_, h.2, rfl, h2⟩
          | plus h => exact absurd rfl hc
          | minus _ h => exact absurd rfl hc2

theorem isNull_iff {F : Type} (fo : FloatOps F) (v : ScalarValue) : isNull v = true ↔ (textReading fo).null v := by
  unfold isNull Scalar.isNullTagged textReading
  dsimp only
  cases hv : v.value with
  | nil => simp
  | cons c cs =>
    simp only [List.isEmpty_cons, Bool.false_or, reduceCtorEq, false_or]
    by_cases hn : c :: cs = bs!"null"
    · rw [hn]; simp
    · rw [if_neg (by simpa using hn)]
      cases ht : v.tag with
      | none =>
        have : (Option.getD none emptyTag).isYamlCoreSchema = false := by decide
        simp only [this, Bool.false_eq_true, if_false, false_iff]
        rintro (h | ⟨-, t, h, -⟩)
        · exact hn h
        · simp at h
      | some t =>
        simp only [Option.getD_some]
        by_cases hc : t.isYamlCoreSchema = false
        · simp only [hc]
          simp only [Bool.false_eq_true, if_false, false_iff]
          rintro (h | ⟨-, t', h, h'⟩)
          · exact hn h
          · simp only [Option.some.injEq] at h; subst h; rw [hc] at h'; simp at h'
        · simp only [Bool.not_eq_false] at hc
          simp only [hc]
          simp only [if_true, Bool.or_eq_true, beq_iff_eq]
          constructor
          · rintro (h | h)
            · exact .inr ⟨h, t, rfl, hc⟩
            · exact .inl h
          · rintro (h | ⟨h, -⟩)
            · exact .inr h
            · exact .inl h

/-! ## Scalars -/

theorem exact_int {F : Type} (n p) (fo : FloatOps F) (ofInt : Int → F) (t : IntTy) : Exact z q n p (deInt (F := F) t) (Reads fo ofInt (textReading fo) (.int t)) := by
  refine Exact.of_scalar (fun x v => ∃ i, (textReading fo).int t x i ∧ v = .int i) ?_ _ rfl ?_ ?_ ?_ ?_
  · intro evs v
    simp only [Reads]
    exact ⟨fun ⟨x, i, a, b, c⟩ => ⟨x, a, i, b, c⟩, fun ⟨x, a, i, b, c⟩ => ⟨x, i, a, b, c⟩⟩
  · rintro x s v ⟨i, hi, rfl⟩
    have := (parseInt_iff t x.value i).2 hi
    dsimp only
    rw [bind_ok (skip_run s), this]; rfl
  · intro x s v s' h
    dsimp only at h
    rw [bind_ok (skip_run s)] at h
    cases hp : parseInt t x.value with
    | none => rw [hp] at h; simp [dfail] at h
    | some i =>
      rw [hp] at h
      simp only [pure_run, Except.ok.injEq, Prod.mk.injEq] at h
      exact ⟨⟨i, (parseInt_iff t x.value i).1 hp, h.1.symm⟩, h.2.symm⟩
  · intro e s r he
    cases e <;> first | exact absurd rfl (he _) | simp [dfail]
  · intro s r; simp [dfail]

theorem exact_scalar {F α : Type} (n p) (fo : FloatOps F) (accept : Scalar F → Option α) :
    Exact z q n p (deScalar fo accept) (fun evs v => ∃ x, Resolves fo evs x ∧ accept x = some v) := by
  refine Exact.of_scalar (fun x v => ∃ y, Scalar.parseFromCowAndMetadata fo x.value x.style x.tag = some y ∧ accept y = some v) ?_ _ rfl ?_ ?_ ?_ ?_
  · intro evs v
    exact ⟨fun ⟨y, ⟨x, a, b⟩, c⟩ => ⟨x, a, y, b, c⟩, fun ⟨x, a, y, b, c⟩ => ⟨y, ⟨x, a, b⟩, c⟩⟩
  · rintro x s v ⟨y, h1, h2⟩
    dsimp only
    rw [bind_ok (skip_run s), h1]
    dsimp only
    rw [h2]; rfl
  · intro x s v s' h
    dsimp only at h
    rw [bind_ok (skip_run s)] at h
    cases hp : Scalar.parseFromCowAndMetadata fo x.value x.style x.tag with
    | none => rw [hp] at h; simp [dfail] at h
    | some y =>
      rw [hp] at h
      dsimp only at h
      cases ha : accept y with
      | none => rw [ha] at h; simp [dfail] at h
      | some r =>
        rw [ha] at h
        simp only [pure_run, Except.ok.injEq, Prod.mk.injEq] at h
        exact ⟨⟨y, rfl, by rw [ha, h.1]⟩, h.2.symm⟩
  · intro e s r he
    cases e <;> first | exact absurd rfl (he _) | simp [dfail]
  · intro s r; simp [dfail]

theorem Exact.congr {α : Type} {n p} {m : DM α} {R S : List YamEvent → α → Prop} (h : Exact z q n p m R) (hRS : ∀ evs v, R evs v ↔ S evs v) : Exact z q n p m S where
  complete := fun s evs it' v a b c d e => h.complete s evs it' v a b c ((hRS _ _).2 d) e
  sound := fun hz s L it' v s' a b c d e => by
    obtain ⟨evs, rest, h1, h2, h3⟩ := h.sound hz s L it' v s' a b c d e
    exact ⟨evs, rest, h1, (hRS _ _).1 h2, h3⟩

theorem exact_bool {F : Type} (n p) (fo : FloatOps F) (ofInt : Int → F) : Exact z q n p (deScalar fo acceptBool) (Reads fo ofInt (textReading fo) .bool) := by
  refine (exact_scalar n p fo acceptBool).congr fun evs v => ?_
  simp only [Reads]
  constructor
  · rintro ⟨x, h, h'⟩
    cases x <;> simp [acceptBool] at h'
    exact ⟨_, h, h'.symm⟩
  · rintro ⟨b, h, rfl⟩; exact ⟨_, h, rfl⟩

theorem exact_float {F : Type} (n p) (fo : FloatOps F) (ofInt : Int → F) :
    Exact z q n p (deScalar fo (acceptFloat ofInt)) (Reads fo ofInt (textReading fo) .float) := by
  refine (exact_scalar n p fo _).congr fun evs v => ?_
  simp only [Reads]
  constructor
  · rintro ⟨x, h, h'⟩
    cases x <;> simp [acceptFloat] at h'
    · exact .inl ⟨_, h, h'.symm⟩
    · exact .inr ⟨_, h, h'.symm⟩
  · rintro (⟨b, h, rfl⟩ | ⟨b, h, rfl⟩)
    · exact ⟨_, h, rfl⟩
    · exact ⟨_, h, rfl⟩

theorem exact_str {F : Type} (n p) (fo : FloatOps F) (ofInt : Int → F) : Exact z q n p (deScalar fo acceptStr) (Reads fo ofInt (textReading fo) .str) := by
  refine (exact_scalar n p fo acceptStr).congr fun evs v => ?_
  simp only [Reads]
  constructor
  · rintro ⟨x, h, h'⟩
    cases x <;> simp [acceptStr] at h'
    exact ⟨_, h, h'.symm⟩
  · rintro ⟨b, h, rfl⟩; exact ⟨_, h, rfl⟩

theorem exact_name {F : Type} (n p) (fo : FloatOps F) : Exact z q n p (deScalar fo acceptName) (fun evs s => Resolves fo evs (.str s)) := by
  refine (exact_scalar n p fo acceptName).congr fun evs v => ?_
  constructor
  · rintro ⟨x, h, h'⟩
    cases x <;> simp [acceptName] at h'
    rw [← h']; exact h
  · intro h; exact ⟨_, h, rfl⟩

theorem peekNull_cons {s e es it'} (hr : Ready s) (h : Ahead s (e :: es) it') : ∃ it1 b, peekNull s = .ok (b, ⟨it1, e, !s.peeked⟩) ∧
    (b = true ↔ ∃ v, e = .scalar v ∧ (textReading fo).null v) ∧ Feeds it1 es it' ∧ Later it1 ∧ e ≠ .docStart := by
  obtain ⟨it1, h1, h2⟩ := skipDoc_cons hr h
  unfold peekNull
  rw [bind_ok h1]
  cases e with
  | scalar v =>
    refine ⟨it1, isNull v, rfl, ?_, h2⟩
    rw [isNull_iff]
    exact ⟨fun h => ⟨v, rfl, h⟩, fun ⟨w, h, h'⟩ => by cases h; exact h'⟩
  | _ => exact ⟨it1, false, rfl, by simp, h2⟩

theorem exact_unit {F : Type} (n p) (fo : FloatOps F) (ofInt : Int → F) : Exact z q n p (deUnit (F := F)) (Reads fo ofInt (textReading fo) .unit) where
  complete := by
    intro s evs it' v hr _ ha hR _
    simp only [Reads] at hR
    obtain ⟨x, rfl, hx, rfl⟩ := hR
    obtain ⟨it1, b, h1, h2, h3, _⟩ := peekNull_cons hr ha
    have hb := h2.2 ⟨x, rfl, hx⟩
    subst hb
    cases h3
    refine ⟨_, rfl, ?_⟩
    unfold deUnit
    rw [bind_ok h1]; rfl
  sound := by
    intro hz; subst hz; intro s L it' v s' hr _ ha hd h
    cases L with
    | nil =>
      unfold deUnit peekNull at h
      obtain ⟨b, s1, h1, h2⟩ := bind_inv h
      rcases skipDoc_stuck ha hd.nil.2 with ⟨s2, h3⟩ | ⟨e, h3⟩
      · rw [bind_ok h3] at h1
        simp only [pure_run, Except.ok.injEq, Prod.mk.injEq] at h1
        rw [← h1.1] at h2
        simp [dfail] at h2
      · rw [bind_err h3] at h1; simp at h1
    | cons e es =>
      obtain ⟨it1, b, h1, h2, h3, h4, _⟩ := peekNull_cons hr ha
      unfold deUnit at h
      rw [bind_ok h1] at h
      cases b with
      | false => simp [dfail] at h
      | true =>
        obtain ⟨x, rfl, hx⟩ := h2.1 rfl
        simp only [if_true] at h
        rw [bind_ok (skip_run _)] at h
        simp only [pure_run, Except.ok.injEq, Prod.mk.injEq] at h
        obtain ⟨rfl, rfl⟩ := h
        exact ⟨[.scalar x], es, rfl, by rw [Reads]; exact ⟨x, rfl, hx, rfl⟩, h3, hd.tail (by simp), rfl, rfl, h4⟩

theorem ahead_peeked {it e es it'} (h : Feeds it es it') : Ahead ⟨it, e, true⟩ (e :: es) it' := by
  unfold Ahead; simp [h]

theorem Exact.map {α β : Type} {n p} {m : DM α} {R : List YamEvent → α → Prop} (h : Exact z q n p m R) (f : α → β) :
    Exact z q n p (do pure (f (← m))) (fun evs w => ∃ v, R evs v ∧ w = f v) where
  complete := by
    rintro s evs it' w a b c ⟨v, hv, rfl⟩ e
    obtain ⟨l, h1, h2⟩ := h.complete s evs it' v a b c hv e
    exact ⟨l, h1, by rw [bind_ok h2]; rfl⟩
  sound := by
    intro hz; subst hz; intro s L it' w s' a b c d hrun
    obtain ⟨v, s1, h1, h2⟩ := bind_inv hrun
    simp only [pure_run, Except.ok.injEq, Prod.mk.injEq] at h2
    obtain ⟨rfl, rfl⟩ := h2
    obtain ⟨evs, rest, h3, h4, h5⟩ := h.sound rfl s L it' v _ a b c d h1
    exact ⟨evs, rest, h3, ⟨v, h4, rfl⟩, h5⟩

/-- the events look like one node -/
inductive NodeShape : List YamEvent → Prop
  | scalar (x) : NodeShape [.scalar x]
  | seq (a tag body) : NodeShape (.seqStart a tag :: (body ++ [.seqEnd]))
  | map (a tag body) : NodeShape (.mapStart a tag :: (body ++ [.mapEnd]))

theorem NodeShape.ne_nil {evs} (h : NodeShape evs) : evs ≠ [] := by cases h <;> simp

theorem NodeShape.scalar' {x es} (h : NodeShape (.scalar x :: es)) : es = [] := by cases h; rfl

theorem reads_shape {F : Type} {fo : FloatOps F} {ofInt : Int → F} {r : Reading} : (t : Ty) → (evs : List YamEvent) → (v : Val F) →
    Reads fo ofInt r t evs v → NodeShape evs
  | .int t, evs, v, h => by
    rw [Reads] at h; obtain ⟨x, i, rfl, -⟩ := h; exact .scalar x
  | .bool, evs, v, h => by
    rw [Reads] at h; obtain ⟨i, ⟨x, rfl, -⟩, -⟩ := h; exact .scalar x
  | .float, evs, v, h => by
    rw [Reads] at h; obtain ⟨i, ⟨x, rfl, -⟩, -⟩ | ⟨i, ⟨x, rfl, -⟩, -⟩ := h <;> exact .scalar x
  | .str, evs, v, h => by
    rw [Reads] at h; obtain ⟨i, ⟨x, rfl, -⟩, -⟩ := h; exact .scalar x
  | .unit, evs, v, h => by
    rw [Reads] at h; obtain ⟨x, rfl, -⟩ := h; exact .scalar x
  | .option t, evs, v, h => by
    rw [Reads] at h
    obtain ⟨x, rfl, -⟩ | ⟨-, y, hy, -⟩ := h
    · exact .scalar x
    · exact reads_shape t evs y hy
  | .vec t, evs, v, h => by
    rw [Reads] at h; obtain ⟨a, tag, body, vs, rfl, -⟩ := h; exact .seq _ _ _
  | .map _ _, evs, v, h => by
    rw [Reads] at h; obtain ⟨a, tag, body, vs, rfl, -⟩ := h; exact .map _ _ _
  | .tuple _, evs, v, h => by
    rw [Reads] at h; obtain ⟨a, tag, body, vs, rfl, -⟩ := h; exact .seq _ _ _
  | .record _ _, evs, v, h => by
    rw [Reads] at h; obtain ⟨a, tag, body, vs, out, rfl, -⟩ := h; exact .map _ _ _
  | .choice _, evs, v, h => by
    rw [Reads] at h
    obtain ⟨x, n, rfl, -⟩ | ⟨a, tag, key, body, n, y, rfl, -⟩ := h
    · exact .scalar x
    · rw [← List.append_assoc]; exact .map _ _ _

theorem exact_option {F : Type} {n} {fo : FloatOps F} {ofInt : Int → F} {t : Ty} {m : DM (Val F)}
    (hq : q = false) (h : Exact z q n true m (Reads fo ofInt (textReading fo) t)) (hne : ∀ evs v, Reads fo ofInt (textReading fo) t evs v → NodeShape evs) :
    Exact z q n false (do
      if ← peekNull then do
        skip
        pure .none
      else do pure (.some (← m))) (Reads fo ofInt (textReading fo) (.option t)) where
  complete := by
    intro s evs it' v hr hp ha hR hn
    simp only [Reads] at hR
    rcases hR with ⟨x, rfl, hx, rfl⟩ | ⟨hnn, y, hy, rfl⟩
    · obtain ⟨it1, b, h1, h2, h3, _⟩ := peekNull_cons hr ha
      have hb := h2.2 ⟨x, rfl, hx⟩
      subst hb
      cases h3
      refine ⟨_, rfl, ?_⟩
      rw [bind_ok h1]; rfl
    · cases evs with
      | nil => exact absurd rfl (hne _ _ hy).ne_nil
      | cons e es =>
        obtain ⟨it1, b, h1, h2, h3, h4, h5⟩ := peekNull_cons hr ha
        rw [hp] at h1
        obtain ⟨l, h6, h7⟩ := (h.map Val.some).complete ⟨it1, e, true⟩ (e :: es) it' _ ⟨h4, fun _ => h5⟩ rfl (ahead_peeked h3) ⟨y, hy, rfl⟩ hn
        refine ⟨l, h6, ?_⟩
        rw [bind_ok h1]
        have hb : b = false := by
          cases b with
          | false => rfl
          | true =>
            obtain ⟨x, rfl, hx⟩ := h2.1 rfl
            -- a null scalar followed by more events is not one node
            exfalso
            cases es with
            | nil => exact hnn x rfl hx
            | cons e' es' =>
              have := (hne _ _ hy).scalar'
              simp at this
        subst hb
        exact h7
  sound := by
    intro hz; subst hz; intro s L it' v s' hr hp ha hd hrun
    cases L with
    | nil => exact absurd hd.nil.1 (by simp [hq])
    | cons e es =>
      obtain ⟨it1, b, h1, h2, h3, h4, h5⟩ := peekNull_cons hr ha
      rw [bind_ok h1] at hrun
      cases b with
      | true =>
        obtain ⟨x, rfl, hx⟩ := h2.1 rfl
        simp only [if_true] at hrun
        rw [bind_ok (skip_run _)] at hrun
        simp only [pure_run, Except.ok.injEq, Prod.mk.injEq] at hrun
        obtain ⟨rfl, rfl⟩ := hrun
        exact ⟨[.scalar x], es, rfl, by rw [Reads]; exact .inl ⟨x, rfl, hx, rfl⟩, h3, hd.tail (by simp), rfl, rfl, h4⟩
      | false =>
        rw [hp] at hrun
        obtain ⟨evs, rest, h6, ⟨y, h7, h8⟩, h9⟩ := (h.map Val.some).sound rfl ⟨it1, e, true⟩ (e :: es) it' v s' ⟨h4, fun _ => h5⟩ rfl (ahead_peeked h3) hd hrun
        refine ⟨evs, rest, h6, ?_, h9⟩
        simp only [Reads]
        refine .inr ⟨?_, y, h7, h8⟩
        rintro x rfl hx
        simp only [List.singleton_append, List.cons.injEq] at h6
        have := h2.2 ⟨x, h6.1, hx⟩
        simp at this

/-! ## Sequences -/

theorem nextElement_end {α : Type} (seed : DM α) {it l es it'} (hl : Later it) (h : Feeds it (.seqEnd :: es) it') :
    ∃ it1, nextElement seed ⟨it, l, false⟩ = .ok (none, ⟨it1, .seqEnd, true⟩) ∧ Feeds it1 es it' ∧ Later it1 := by
  cases h with
  | @cons _ _ it1 _ _ hn hr =>
    refine ⟨it1, ?_, hr, (next_later hl hn).1⟩
    unfold nextElement
    have : nextEl ⟨it, l, false⟩ = .ok (some .seqEnd, ⟨it1, .seqEnd, true⟩) := by simp [nextEl, hn]
    rw [bind_ok this]; rfl

/-- a further element -/
def Opens : YamEvent → Prop
  | .docStart | .seqEnd | .docEnd | .streamEnd | .mapEnd => False
  | _ => True

theorem nextElement_some {α : Type} (seed : DM α) {it l e es it'} (hl : Later it) (he : e ≠ .seqEnd ∧ e ≠ .docEnd ∧ e ≠ .streamEnd) (h : Feeds it (e :: es) it') :
    ∃ it1, nextElement seed ⟨it, l, false⟩ = (do pure (some (← seed)) : DM (Option α)) ⟨it1, e, true⟩ ∧ Feeds it1 es it' ∧ Later it1 ∧ e ≠ .docStart := by
  cases h with
  | @cons _ _ it1 _ _ hn hr =>
    refine ⟨it1, ?_, hr, next_later hl hn⟩
    unfold nextElement
    have : nextEl ⟨it, l, false⟩ = .ok (some e, ⟨it1, e, true⟩) := by simp [nextEl, hn]
    rw [bind_ok this]
    cases e <;> first | rfl | simp at he

theorem nextElement_sound {α : Type} {n} {seed : DM α} {R : List YamEvent → α → Prop} (hs : Exact true q n true seed R) {it l L it' o s'} (hl : Later it)
    (h : Feeds it L it') (hd : Enough q L it') (hrun : nextElement seed ⟨it, l, false⟩ = .ok (o, s')) :
    (o = none ∧ ∃ rest, L = .seqEnd :: rest ∧ Enough q rest it' ∧ Feeds s'.it rest it' ∧ Later s'.it ∧ s'.last = .seqEnd ∧ s'.peeked = true) ∨
    (∃ v a rest, o = some v ∧ L = a ++ rest ∧ R a v ∧ Feeds s'.it rest it' ∧ Enough q rest it' ∧ s'.peeked = false ∧ a.getLast? = some s'.last ∧ Later s'.it) := by
  cases L with
  | nil =>
    cases h
    unfold nextElement at hrun
    rcases nextEl_stuck (l := l) hd.nil.2 with ⟨s1, h1⟩ | ⟨e, h1⟩
    · rw [bind_ok h1] at hrun
      dsimp only at hrun
      rw [bind_ok (last_run _)] at hrun; simp [dfail] at hrun
    · rw [bind_err h1] at hrun; simp at hrun
  | cons e es =>
    by_cases he : e = .seqEnd
    · subst he
      obtain ⟨it1, h1, h2, h3⟩ := nextElement_end seed (l := l) hl h
      rw [h1] at hrun
      simp only [Except.ok.injEq, Prod.mk.injEq] at hrun
      obtain ⟨rfl, rfl⟩ := hrun
      exact .inl ⟨rfl, es, rfl, hd.tail (by simp), h2, h3, rfl, rfl⟩
    · by_cases he2 : e = .docEnd ∨ e = .streamEnd
      · exfalso
        cases h with
        | @cons _ _ it1 _ _ hn hr =>
          unfold nextElement at hrun
          have : nextEl ⟨it, l, false⟩ = .ok (some e, ⟨it1, e, true⟩) := by simp [nextEl, hn]
          rw [bind_ok this] at hrun
          rcases he2 with rfl | rfl <;> (dsimp only at hrun; rw [bind_ok (last_run _)] at hrun; simp [dfail] at hrun)
      · simp only [not_or] at he2
        obtain ⟨it1, h1, h2, h3, h4⟩ := nextElement_some seed (l := l) hl ⟨he, he2.1, he2.2⟩ h
        rw [h1] at hrun
        obtain ⟨a, rest, h5, ⟨v, h6, h7⟩, h8⟩ := (hs.map some).sound rfl _ _ it' _ _ ⟨h3, fun _ => h4⟩ rfl (ahead_peeked h2) hd hrun
        exact .inr ⟨v, a, rest, h7, h5, h6, h8⟩

theorem NodeShape.head {evs} (h : NodeShape evs) : ∃ e es, evs = e :: es ∧ e ≠ .seqEnd ∧ e ≠ .docEnd ∧ e ≠ .streamEnd ∧ e ≠ .mapEnd := by
  cases h <;> exact ⟨_, _, rfl, by simp, by simp, by simp, by simp⟩

theorem nextElement_complete {α : Type} {n} {seed : DM α} {R : List YamEvent → α → Prop} (hs : Exact z q n true seed R) (hsh : ∀ evs v, R evs v → NodeShape evs)
    {it l a rest it' v} (hl : Later it) (h : Feeds it (a ++ rest) it') (hv : R a v) (hn : a.length ≤ n) :
    ∃ it1 l1, nextElement seed ⟨it, l, false⟩ = .ok (some v, ⟨it1, l1, false⟩) ∧ Feeds it1 rest it' ∧ Later it1 ∧ a.getLast? = some l1 := by
  obtain ⟨it2, hf, hf2⟩ := feeds_append.1 h
  obtain ⟨e, es, rfl, h1, h2, h3, _⟩ := (hsh _ _ hv).head
  obtain ⟨it1, h4, h5, h6, h7⟩ := nextElement_some seed (l := l) hl ⟨h1, h2, h3⟩ hf
  obtain ⟨l1, h8, h9⟩ := (hs.map some).complete ⟨it1, e, true⟩ (e :: es) it2 _ ⟨h6, fun _ => h7⟩ rfl (ahead_peeked h5) ⟨v, hv, rfl⟩ hn
  exact ⟨it2, l1, by rw [h4, h9], hf2, (feeds_later hl hf).1, h8⟩

theorem vecLoop_complete {α : Type} {n} {seed : DM α} {R : List YamEvent → α → Prop} (hs : Exact z q n true seed R) (hsh : ∀ evs v, R evs v → NodeShape evs)
    {body vs} (h : Each R body vs) : ∀ {it l it' fuel}, Later it → Feeds it (body ++ [.seqEnd]) it' → body.length < fuel → body.length ≤ n →
      vecLoop seed fuel ⟨it, l, false⟩ = .ok (vs, ⟨it', .seqEnd, true⟩) := by
  induction h with
  | nil =>
    intro it l it' fuel hl hf hlt _
    obtain ⟨f, rfl⟩ : ∃ f, fuel = f + 1 := ⟨fuel - 1, by simp at hlt; omega⟩
    obtain ⟨it1, h1, h2, _⟩ := nextElement_end seed (l := l) hl hf
    cases h2
    unfold vecLoop
    rw [bind_ok h1]; rfl
  | @cons a v es vs hv _ ih =>
    intro it l it' fuel hl hf hlt hn
    rw [List.append_assoc] at hf
    have hpos : 0 < a.length := List.length_pos_iff.2 (hsh _ _ hv).ne_nil
    simp only [List.length_append] at hlt hn
    obtain ⟨f, rfl⟩ : ∃ f, fuel = f + 1 := ⟨fuel - 1, by omega⟩
    obtain ⟨it1, l1, h1, h2, h3, _⟩ := nextElement_complete hs hsh (l := l) hl hf hv (by omega)
    unfold vecLoop
    rw [bind_ok h1]
    dsimp only
    rw [bind_ok (ih h3 h2 (by omega) (by omega))]; rfl

theorem vecLoop_sound {α : Type} {n} {seed : DM α} {R : List YamEvent → α → Prop} (hs : Exact true q n true seed R) (fuel : Nat) :
    ∀ {it l L it' vs s'}, Later it → Feeds it L it' → Enough q L it' → vecLoop seed fuel ⟨it, l, false⟩ = .ok (vs, s') →
      ∃ body rest, L = body ++ (.seqEnd :: rest) ∧ Each R body vs ∧ Feeds s'.it rest it' ∧ Enough q rest it' ∧ s'.last = .seqEnd ∧ s'.peeked = true ∧ Later s'.it := by
  induction fuel with
  | zero => intro it l L it' vs s' _ _ _ h; simp [vecLoop, dfail] at h
  | succ f ih =>
    intro it l L it' vs s' hl hf hd h
    unfold vecLoop at h
    obtain ⟨o, s1, h1, h2⟩ := bind_inv h
    obtain ⟨s1it, s1l, s1p⟩ := s1
    rcases nextElement_sound hs hl hf hd h1 with ⟨rfl, rest, rfl, h3, h4, h5, h6, h7⟩ | ⟨v, a, rest, rfl, rfl, h3, h4, h5, h6, h7, h8⟩
    · simp only [pure_run, Except.ok.injEq, Prod.mk.injEq] at h2
      obtain ⟨rfl, rfl⟩ := h2
      exact ⟨[], rest, rfl, .nil, h4, h3, h6, h7, h5⟩
    · dsimp only at h2 h4 h6 h7 h8
      subst h6
      obtain ⟨vs', s2, h9, h10⟩ := bind_inv h2
      simp only [pure_run, Except.ok.injEq, Prod.mk.injEq] at h10
      obtain ⟨rfl, rfl⟩ := h10
      obtain ⟨body, rest', rfl, h11, h12⟩ := ih h8 h4 h5 h9
      exact ⟨a ++ body, rest', by simp, .cons h3 h11, h12⟩

/-- what the visitor of a sequence does -/
structure Visit {α : Type} (z q : Bool) (n : Nat) (e : YamEvent) (isEnd : YamEvent → Bool) (expected : String) (visit : DM α) (B : List YamEvent → α → Prop) : Prop where
  complete : ∀ it l it' body v, Later it → isEnd l = false → B body v → Feeds it (body ++ [e]) it' → body.length < n →
    ∃ s1, visit ⟨it, l, false⟩ = .ok (v, s1) ∧ finish isEnd expected s1 = .ok ((), ⟨it', e, false⟩)
  sound : z = true → ∀ it l L it' v s1 s', Later it → isEnd l = false → Feeds it L it' → Enough q L it' → visit ⟨it, l, false⟩ = .ok (v, s1) →
    finish isEnd expected s1 = .ok ((), s') → ∃ body rest, L = body ++ (e :: rest) ∧ B body v ∧ Feeds s'.it rest it' ∧ Enough q rest it' ∧
      s'.peeked = false ∧ s'.last = e ∧ Later s'.it

theorem finish_last {isEnd : YamEvent → Bool} {expected s} (h : isEnd s.last = true) : finish isEnd expected s = .ok ((), { s with peeked := false }) := by
  unfold finish
  rw [bind_ok (last_run s), if_pos h]; rfl

theorem visit_vec {α : Type} {n} {seed : DM α} {R : List YamEvent → α → Prop} (hs : Exact z q n true seed R) (hsh : ∀ evs v, R evs v → NodeShape evs) :
    Visit z q n .seqEnd isSeqEnd "SeqEnd" (vecLoop seed n) (Each R) where
  complete := by
    intro it l it' body v hl _ hB hf hn
    exact ⟨_, vecLoop_complete hs hsh hB hl hf hn (by omega), finish_last rfl⟩
  sound := by
    intro hz; subst hz; intro it l L it' v s1 s' hl _ hf hd hv hfin
    obtain ⟨body, rest, h1, h2, h3, h4, h5, h6, h7⟩ := vecLoop_sound hs n hl hf hd hv
    rw [finish_last (by rw [h5]; rfl)] at hfin
    simp only [Except.ok.injEq, Prod.mk.injEq, true_and] at hfin
    subst hfin
    exact ⟨body, rest, h1, h2, h3, h4, rfl, h5, h7⟩

theorem getLast?_end {α : Type} (x : α) (l : List α) (y : α) : (x :: (l ++ [y])).getLast? = some y := by
  rw [← List.cons_append, List.getLast?_concat]

theorem exact_seq {α : Type} {n p} {visit : DM α} {B : List YamEvent → α → Prop} (h : Visit z q n .seqEnd isSeqEnd "SeqEnd" visit B) :
    Exact z q n p (deserializeSeq visit) (fun evs v => ∃ a tag body, evs = .seqStart a tag :: (body ++ [.seqEnd]) ∧ B body v) where
  complete := by
    rintro s evs it' v hr hp ha ⟨a, tag, body, rfl, hB⟩ hn
    obtain ⟨it1, h1, h2, h3, _⟩ := skipDoc_cons hr ha
    simp only [List.length_cons, List.length_append, List.length_nil] at hn
    obtain ⟨s1, h4, h5⟩ := h.complete it1 (.seqStart a tag) it' body v h3 rfl hB h2 (by omega)
    refine ⟨.seqEnd, getLast?_end _ _ _, ?_⟩
    unfold deserializeSeq
    rw [bind_ok h1]
    dsimp only
    rw [bind_ok (skip_run _), bind_ok h4, bind_ok h5]; rfl
  sound := by
    intro hz; subst hz; intro s L it' v s' hr hp ha hd hrun
    cases L with
    | nil =>
      unfold deserializeSeq at hrun
      exact absurd hrun (skipDoc_end ha hd.nil.2 fun s => by dsimp only; rw [bind_ok (last_run _)]; simp [dfail])
    | cons e es =>
      obtain ⟨it1, h1, h2, h3, _⟩ := skipDoc_cons hr ha
      unfold deserializeSeq at hrun
      rw [bind_ok h1] at hrun
      cases e with
      | seqStart a tag =>
        dsimp only at hrun
        rw [bind_ok (skip_run _)] at hrun
        obtain ⟨v', s1, h4, h5⟩ := bind_inv hrun
        obtain ⟨u, s2, h6, h7⟩ := bind_inv h5
        simp only [pure_run, Except.ok.injEq, Prod.mk.injEq] at h7
        obtain ⟨rfl, rfl⟩ := h7
        obtain ⟨body, rest, rfl, h8, h9, h10, h11, h12, h13⟩ := h.sound rfl it1 (.seqStart a tag) es it' _ _ _ h3 rfl h2 (hd.tail (by simp)) h4 h6
        exact ⟨.seqStart a tag :: (body ++ [.seqEnd]), rest, by simp, ⟨a, tag, body, rfl, h8⟩, h9, h10, h11, by rw [h12]; exact getLast?_end _ _ _, h13⟩
      | _ => dsimp only at hrun; rw [bind_ok (last_run _)] at hrun; simp [dfail] at hrun

theorem exact_map {α : Type} {n p} {visit : DM α} {B : List YamEvent → α → Prop} (h : Visit z q n .mapEnd isMapEnd "MapEnd" visit B) :
    Exact z q n p (deserializeMap visit) (fun evs v => ∃ a tag body, evs = .mapStart a tag :: (body ++ [.mapEnd]) ∧ B body v) where
  complete := by
    rintro s evs it' v hr hp ha ⟨a, tag, body, rfl, hB⟩ hn
    obtain ⟨it1, h1, h2, h3, _⟩ := skipDoc_cons hr ha
    simp only [List.length_cons, List.length_append, List.length_nil] at hn
    obtain ⟨s1, h4, h5⟩ := h.complete it1 (.mapStart a tag) it' body v h3 rfl hB h2 (by omega)
    refine ⟨.mapEnd, getLast?_end _ _ _, ?_⟩
    unfold deserializeMap
    rw [bind_ok h1]
    dsimp only
    rw [bind_ok (skip_run _), bind_ok h4, bind_ok h5]; rfl
  sound := by
    intro hz; subst hz; intro s L it' v s' hr hp ha hd hrun
    cases L with
    | nil =>
      unfold deserializeMap at hrun
      exact absurd hrun (skipDoc_end ha hd.nil.2 fun s => by dsimp only; rw [bind_ok (last_run _)]; simp [dfail])
    | cons e es =>
      obtain ⟨it1, h1, h2, h3, _⟩ := skipDoc_cons hr ha
      unfold deserializeMap at hrun
      rw [bind_ok h1] at hrun
      cases e with
      | mapStart a tag =>
        dsimp only at hrun
        rw [bind_ok (skip_run _)] at hrun
        obtain ⟨v', s1, h4, h5⟩ := bind_inv hrun
        obtain ⟨u, s2, h6, h7⟩ := bind_inv h5
        simp only [pure_run, Except.ok.injEq, Prod.mk.injEq] at h7
        obtain ⟨rfl, rfl⟩ := h7
        obtain ⟨body, rest, rfl, h8, h9, h10, h11, h12, h13⟩ := h.sound rfl it1 (.mapStart a tag) es it' _ _ _ h3 rfl h2 (hd.tail (by simp)) h4 h6
        exact ⟨.mapStart a tag :: (body ++ [.mapEnd]), rest, by simp, ⟨a, tag, body, rfl, h8⟩, h9, h10, h11, by rw [h12]; exact getLast?_end _ _ _, h13⟩
      | _ => dsimp only at hrun; rw [bind_ok (last_run _)] at hrun; simp [dfail] at hrun

theorem exact_any {α : Type} {n} {m k : DM α} {R : List YamEvent → α → Prop} (start : YamEvent → Bool) (f : Option YamEvent → DM α)
    (hk : k = skipDoc >>= f) (hf : ∀ e, start e = true → f (some e) = m) (hf' : ∀ e s r, start e = false → f (some e) s ≠ .ok r) (hend : ∀ s r, f none s ≠ .ok r)
    (h : Exact z q n true m R) (hR : ∀ evs v, R evs v → ∃ e es, evs = e :: es ∧ start e = true) : Exact z q n false k R where
  complete := by
    intro s evs it' v hr hp ha hB hn
    obtain ⟨e, es, rfl, he⟩ := hR _ _ hB
    obtain ⟨it1, h1, h2, h3, h4⟩ := skipDoc_cons hr ha
    rw [hp] at h1
    obtain ⟨l, h5, h6⟩ := h.complete ⟨it1, e, true⟩ (e :: es) it' v ⟨h3, fun _ => h4⟩ rfl (ahead_peeked h2) hB hn
    exact ⟨l, h5, by rw [hk, bind_ok h1, hf e he]; exact h6⟩
  sound := by
    intro hz; subst hz; intro s L it' v s' hr hp ha hd hrun
    cases L with
    | nil => rw [hk] at hrun; exact absurd hrun (skipDoc_end ha hd.nil.2 fun s => hend s _)
    | cons e es =>
      obtain ⟨it1, h1, h2, h3, h4⟩ := skipDoc_cons hr ha
      rw [hk, bind_ok h1, hp] at hrun
      cases he : start e with
      | false => exact absurd hrun (hf' _ _ _ he)
      | true =>
        rw [hf e he] at hrun
        exact h.sound rfl ⟨it1, e, true⟩ (e :: es) it' v s' ⟨h3, fun _ => h4⟩ rfl (ahead_peeked h2) hd hrun

/-! ## Maps -/

theorem nextKey_end {α : Type} (seed : DM α) {it l es it'} (hl : Later it) (h : Feeds it (.mapEnd :: es) it') :
    ∃ it1, nextKey seed ⟨it, l, false⟩ = .ok (none, ⟨it1, .mapEnd, true⟩) ∧ Feeds it1 es it' ∧ Later it1 := by
  cases h with
  | @cons _ _ it1 _ _ hn hr =>
    refine ⟨it1, ?_, hr, (next_later hl hn).1⟩
    unfold nextKey
    have : nextEl ⟨it, l, false⟩ = .ok (some .mapEnd, ⟨it1, .mapEnd, true⟩) := by simp [nextEl, hn]
    rw [bind_ok this]; rfl

theorem nextKey_some {α : Type} (seed : DM α) {it l e es it'} (hl : Later it) (he : e ≠ .mapEnd ∧ e ≠ .docEnd ∧ e ≠ .streamEnd) (h : Feeds it (e :: es) it') :
    ∃ it1, nextKey seed ⟨it, l, false⟩ = (do pure (some (← seed)) : DM (Option α)) ⟨it1, e, true⟩ ∧ Feeds it1 es it' ∧ Later it1 ∧ e ≠ .docStart := by
  cases h with
  | @cons _ _ it1 _ _ hn hr =>
    refine ⟨it1, ?_, hr, next_later hl hn⟩
    unfold nextKey
    have : nextEl ⟨it, l, false⟩ = .ok (some e, ⟨it1, e, true⟩) := by simp [nextEl, hn]
    rw [bind_ok this]
    cases e <;> first | rfl | simp at he

theorem nextKey_sound {α : Type} {n} {seed : DM α} {R : List YamEvent → α → Prop} (hs : Exact true q n true seed R) {it l L it' o s'} (hl : Later it)
    (h : Feeds it L it') (hd : Enough q L it') (hrun : nextKey seed ⟨it, l, false⟩ = .ok (o, s')) :
    (o = none ∧ ∃ rest, L = .mapEnd :: rest ∧ Enough q rest it' ∧ Feeds s'.it rest it' ∧ Later s'.it ∧ s'.last = .mapEnd ∧ s'.peeked = true) ∨
    (∃ v a rest, o = some v ∧ L = a ++ rest ∧ R a v ∧ Feeds s'.it rest it' ∧ Enough q rest it' ∧ s'.peeked = false ∧ a.getLast? = some s'.last ∧ Later s'.it) := by
  cases L with
  | nil =>
    cases h
    unfold nextKey at hrun
    rcases nextEl_stuck (l := l) hd.nil.2 with ⟨s1, h1⟩ | ⟨e, h1⟩
    · rw [bind_ok h1] at hrun
      dsimp only at hrun
      rw [bind_ok (last_run _)] at hrun; simp [dfail] at hrun
    · rw [bind_err h1] at hrun; simp at hrun
  | cons e es =>
    by_cases he : e = .mapEnd
    · subst he
      obtain ⟨it1, h1, h2, h3⟩ := nextKey_end seed (l := l) hl h
      rw [h1] at hrun
      simp only [Except.ok.injEq, Prod.mk.injEq] at hrun
      obtain ⟨rfl, rfl⟩ := hrun
      exact .inl ⟨rfl, es, rfl, hd.tail (by simp), h2, h3, rfl, rfl⟩
    · by_cases he2 : e = .docEnd ∨ e = .streamEnd
      · exfalso
        cases h with
        | @cons _ _ it1 _ _ hn hr =>
          unfold nextKey at hrun
          have : nextEl ⟨it, l, false⟩ = .ok (some e, ⟨it1, e, true⟩) := by simp [nextEl, hn]
          rw [bind_ok this] at hrun
          rcases he2 with rfl | rfl <;> (dsimp only at hrun; rw [bind_ok (last_run _)] at hrun; simp [dfail] at hrun)
      · simp only [not_or] at he2
        obtain ⟨it1, h1, h2, h3, h4⟩ := nextKey_some seed (l := l) hl ⟨he, he2.1, he2.2⟩ h
        rw [h1] at hrun
        obtain ⟨a, rest, h5, ⟨v, h6, h7⟩, h8⟩ := (hs.map some).sound rfl _ _ it' _ _ ⟨h3, fun _ => h4⟩ rfl (ahead_peeked h2) hd hrun
        exact .inr ⟨v, a, rest, h7, h5, h6, h8⟩

theorem nextKey_complete {α : Type} {n} {seed : DM α} {R : List YamEvent → α → Prop} (hs : Exact z q n true seed R) (hsh : ∀ evs v, R evs v → NodeShape evs)
    {it l a rest it' v} (hl : Later it) (h : Feeds it (a ++ rest) it') (hv : R a v) (hn : a.length ≤ n) :
    ∃ it1 l1, nextKey seed ⟨it, l, false⟩ = .ok (some v, ⟨it1, l1, false⟩) ∧ Feeds it1 rest it' ∧ Later it1 ∧ a.getLast? = some l1 := by
  obtain ⟨it2, hf, hf2⟩ := feeds_append.1 h
  obtain ⟨e, es, rfl, -, h2, h3, h1⟩ := (hsh _ _ hv).head
  obtain ⟨it1, h4, h5, h6, h7⟩ := nextKey_some seed (l := l) hl ⟨h1, h2, h3⟩ hf
  obtain ⟨l1, h8, h9⟩ := (hs.map some).complete ⟨it1, e, true⟩ (e :: es) it2 _ ⟨h6, fun _ => h7⟩ rfl (ahead_peeked h5) ⟨v, hv, rfl⟩ hn
  exact ⟨it2, l1, by rw [h4, h9], hf2, (feeds_later hl hf).1, h8⟩

/-- a value after a key -/
theorem value_complete {α : Type} {n} {m : DM α} {R : List YamEvent → α → Prop} (hs : Exact z q n false m R)
    {it l a rest it' v} (hl : Later it) (h : Feeds it (a ++ rest) it') (hv : R a v) (hn : a.length ≤ n) :
    ∃ it1 l1, m ⟨it, l, false⟩ = .ok (v, ⟨it1, l1, false⟩) ∧ Feeds it1 rest it' ∧ Later it1 := by
  obtain ⟨it2, hf, hf2⟩ := feeds_append.1 h
  obtain ⟨l1, h8, h9⟩ := hs.complete ⟨it, l, false⟩ a it2 _ ⟨hl, by simp⟩ rfl ((ahead_fresh rfl).2 hf) hv hn
  exact ⟨it2, l1, h9, hf2, (feeds_later hl hf).1⟩

theorem mapLoop_complete {α β : Type} {n} {key : DM α} {value : DM β} {R : List YamEvent → α → Prop} {S : List YamEvent → β → Prop}
    (hk : Exact z q n true key R) (hsh : ∀ evs v, R evs v → NodeShape evs) (hv : Exact z q n false value S)
    {body kvs} (h : EachPair R S body kvs) : ∀ {it l it' fuel}, Later it → Feeds it (body ++ [.mapEnd]) it' → body.length < fuel → body.length ≤ n →
      mapLoop key value fuel ⟨it, l, false⟩ = .ok (kvs, ⟨it', .mapEnd, true⟩) := by
  induction h with
  | nil =>
    intro it l it' fuel hl hf hlt _
    obtain ⟨f, rfl⟩ : ∃ f, fuel = f + 1 := ⟨fuel - 1, by simp at hlt; omega⟩
    obtain ⟨it1, h1, h2, _⟩ := nextKey_end key (l := l) hl hf
    cases h2
    unfold mapLoop
    rw [bind_ok h1]; rfl
  | @cons a k b v es kvs hk1 hv1 _ ih =>
    intro it l it' fuel hl hf hlt hn
    rw [List.append_assoc, List.append_assoc] at hf
    have hpos : 0 < a.length := List.length_pos_iff.2 (hsh _ _ hk1).ne_nil
    simp only [List.length_append] at hlt hn
    obtain ⟨f, rfl⟩ : ∃ f, fuel = f + 1 := ⟨fuel - 1, by omega⟩
    obtain ⟨it1, l1, h1, h2, h3, _⟩ := nextKey_complete hk hsh (l := l) hl hf hk1 (by omega)
    obtain ⟨it2, l2, h4, h5, h6⟩ := value_complete hv (l := l1) h3 h2 hv1 (by omega)
    unfold mapLoop
    rw [bind_ok h1]
    dsimp only
    rw [bind_ok h4, bind_ok (ih h6 h5 (by omega) (by omega))]; rfl

theorem mapLoop_sound {α β : Type} {n} {key : DM α} {value : DM β} {R : List YamEvent → α → Prop} {S : List YamEvent → β → Prop}
    (hk : Exact true q n true key R) (hv : Exact true q n false value S) (fuel : Nat) :
    ∀ {it l L it' kvs s'}, Later it → Feeds it L it' → Enough q L it' → mapLoop key value fuel ⟨it, l, false⟩ = .ok (kvs, s') →
      ∃ body rest, L = body ++ (.mapEnd :: rest) ∧ EachPair R S body kvs ∧ Feeds s'.it rest it' ∧ Enough q rest it' ∧ s'.last = .mapEnd ∧ s'.peeked = true ∧ Later s'.it := by
  induction fuel with
  | zero => intro it l L it' vs s' _ _ _ h; simp [mapLoop, dfail] at h
  | succ f ih =>
    intro it l L it' vs s' hl hf hd h
    unfold mapLoop at h
    obtain ⟨o, s1, h1, h2⟩ := bind_inv h
    obtain ⟨s1it, s1l, s1p⟩ := s1
    rcases nextKey_sound hk hl hf hd h1 with ⟨rfl, rest, rfl, h3, h4, h5, h6, h7⟩ | ⟨v, a, rest, rfl, rfl, h3, h4, h5, h6, h7, h8⟩
    · simp only [pure_run, Except.ok.injEq, Prod.mk.injEq] at h2
      obtain ⟨rfl, rfl⟩ := h2
      exact ⟨[], rest, rfl, .nil, h4, h3, h6, h7, h5⟩
    · dsimp only at h2 h4 h6 h7 h8
      subst h6
      obtain ⟨w, s2, h9, h10⟩ := bind_inv h2
      obtain ⟨kvs', s3, h11, h12⟩ := bind_inv h10
      simp only [pure_run, Except.ok.injEq, Prod.mk.injEq] at h12
      obtain ⟨rfl, rfl⟩ := h12
      obtain ⟨b, rest1, rfl, h13, h14, h15, h16, h17, h18⟩ := hv.sound rfl _ _ it' _ _ ⟨h8, by simp⟩ rfl ((ahead_fresh rfl).2 h4) h5 h9
      obtain ⟨s2it, s2l, s2p⟩ := s2
      dsimp only at h14 h16 h17 h18
      subst h16
      obtain ⟨body, rest', rfl, h19, h20⟩ := ih h18 h14 h15 h11
      exact ⟨a ++ (b ++ body), rest', by simp, .cons h3 h13 h19, h20⟩

theorem visit_map {α β : Type} {n} {key : DM α} {value : DM β} {R : List YamEvent → α → Prop} {S : List YamEvent → β → Prop}
    (hk : Exact z q n true key R) (hsh : ∀ evs v, R evs v → NodeShape evs) (hv : Exact z q n false value S) :
    Visit z q n .mapEnd isMapEnd "MapEnd" (mapLoop key value n) (EachPair R S) where
  complete := by
    intro it l it' body v hl _ hB hf hn
    exact ⟨_, mapLoop_complete hk hsh hv hB hl hf hn (by omega), finish_last rfl⟩
  sound := by
    intro hz; subst hz; intro it l L it' v s1 s' hl _ hf hd hr hfin
    obtain ⟨body, rest, h1, h2, h3, h4, h5, h6, h7⟩ := mapLoop_sound hk hv n hl hf hd hr
    rw [finish_last (by rw [h5]; rfl)] at hfin
    simp only [Except.ok.injEq, Prod.mk.injEq, true_and] at hfin
    subst hfin
    exact ⟨body, rest, h1, h2, h3, h4, rfl, h5, h7⟩

/-! ## Fields that are ignored -/

theorem plainPairs_each {F : Type} {fo : FloatOps F} : ∀ {body}, PlainPairs fo body →
    ∃ kvs, EachPair (fun evs (_ : Unit) => ∃ v, evs = [.scalar v] ∧ Resolvable fo v) (fun evs (_ : Unit) => PlainNode fo evs) body kvs
  | _, .nil => ⟨_, .nil⟩
  | _, .cons hk hv hp => by
    obtain ⟨kvs, h⟩ := plainPairs_each hp
    exact ⟨_, .cons (a := [_]) (k := ()) ⟨_, rfl, hk⟩ (v := ()) hv h⟩

theorem scalars_each {F : Type} {fo : FloatOps F} : ∀ {vs : List ScalarValue}, (∀ v ∈ vs, Resolvable fo v) →
    ∃ us, Each (fun evs (_ : Unit) => ∃ v, evs = [.scalar v] ∧ Resolvable fo v) (vs.map .scalar) us
  | [], _ => ⟨_, .nil⟩
  | v :: vs, h => by
    obtain ⟨us, hu⟩ := scalars_each (vs := vs) fun x hx => h x (by simp [hx])
    exact ⟨_, .cons (a := [_]) (v := ()) ⟨_, rfl, h v (by simp)⟩ hu⟩

theorem ignore_scalar {F : Type} (fo : FloatOps F) (n : Nat) (p : Bool) :
    Exact false q n p (ignoreAny fo n) (fun evs (_ : Unit) => ∃ v, evs = [.scalar v] ∧ Resolvable fo v) where
  sound := by simp
  complete := by
    rintro s evs it' _ hr _ ha ⟨v, rfl, x, hx⟩ hn
    obtain ⟨it1, h1, h2, _⟩ := skipDoc_cons hr ha
    cases h2
    obtain ⟨m, rfl⟩ : ∃ m, n = m + 1 := ⟨n - 1, by simp at hn; omega⟩
    refine ⟨.scalar v, by simp, ?_⟩
    rw [ignoreAny, bind_ok h1]
    dsimp only
    rw [bind_ok (skip_run _), hx]; rfl

theorem exact_ignore {F : Type} (fo : FloatOps F) (n : Nat) : Exact false q n false (ignoreAny fo n) (fun evs (_ : Unit) => PlainNode fo evs) := by
  induction n with
  | zero =>
    refine ⟨?_, by simp⟩
    intro s evs it' _ _ _ _ h hn
    cases h <;> simp at hn
  | succ n ih =>
    refine ⟨?_, by simp⟩
    intro s evs it' u hr hp ha h hn
    cases h with
    | scalar hv => exact (ignore_scalar (q := q) fo (n + 1) false).complete s _ it' u hr hp ha ⟨_, rfl, hv⟩ hn
    | @seq vs a tag hv =>
      have hV : Visit false q (n + 1) .seqEnd isSeqEnd "SeqEnd" (do
          let _ ← vecLoop (ignoreAny fo n) (n + 1)
          pure ()) (fun body (_ : Unit) => ∃ us, Each (fun evs (_ : Unit) => ∃ v, evs = [.scalar v] ∧ Resolvable fo v) body us) := by
        refine ⟨?_, by simp⟩
        rintro it l it' body v hl _ ⟨us, hB⟩ hf hn
        refine ⟨_, ?_, finish_last (s := ⟨it', .seqEnd, true⟩) rfl⟩
        rw [bind_ok (vecLoop_complete (ignore_scalar (q := q) fo n true) (fun evs v ⟨x, h, _⟩ => by rw [h]; exact .scalar x) hB hl hf hn (by omega))]; rfl
      obtain ⟨us, hu⟩ := scalars_each hv
      obtain ⟨it1, h1, h2, h3, h4⟩ := skipDoc_cons hr ha
      rw [hp] at h1
      obtain ⟨l, h5, h6⟩ := (exact_seq (p := true) hV).complete ⟨it1, .seqStart a tag, true⟩ _ it' u ⟨h3, fun _ => h4⟩ rfl (ahead_peeked h2)
        ⟨a, tag, _, rfl, us, hu⟩ hn
      exact ⟨l, h5, by rw [ignoreAny, bind_ok h1]; exact h6⟩
    | @map body a tag hb =>
      have hV : Visit false q (n + 1) .mapEnd isMapEnd "MapEnd" (do
          let _ ← mapLoop (ignoreAny fo n) (ignoreAny fo n) (n + 1)
          pure ()) (fun body (_ : Unit) => ∃ us, EachPair (fun evs (_ : Unit) => ∃ v, evs = [.scalar v] ∧ Resolvable fo v)
            (fun evs (_ : Unit) => PlainNode fo evs) body us) := by
        refine ⟨?_, by simp⟩
        rintro it l it' body v hl _ ⟨us, hB⟩ hf hn
        refine ⟨_, ?_, finish_last (s := ⟨it', .mapEnd, true⟩) rfl⟩
        rw [bind_ok (mapLoop_complete (ignore_scalar fo n true) (fun evs v ⟨x, h, _⟩ => by rw [h]; exact .scalar x) ih hB hl hf hn (by omega))]; rfl
      obtain ⟨it1, h1, h2, h3, h4⟩ := skipDoc_cons hr ha
      rw [hp] at h1
      obtain ⟨l, h5, h6⟩ := (exact_map (p := true) hV).complete ⟨it1, .mapStart a tag, true⟩ _ it' u ⟨h3, fun _ => h4⟩ rfl (ahead_peeked h2)
        ⟨a, tag, _, rfl, plainPairs_each hb⟩ hn
      exact ⟨l, h5, by rw [ignoreAny, bind_ok h1]; exact h6⟩

theorem exact_unknown {F : Type} (fo : FloatOps F) (n : Nat) (deny : Bool) (h : (deny || !z) = true) :
    Exact z q n false (onUnknown fo n deny) (fun evs (_ : Unit) => deny = false ∧ PlainNode fo evs) := by
  cases deny with
  | true => exact ⟨by simp, by intro _ s L it' v s' _ _ _ _ h; simp [onUnknown, dfail] at h⟩
  | false =>
    simp only [Bool.false_or, Bool.not_eq_true'] at h
    subst h
    refine (exact_ignore fo n).congr fun evs v => by simp

/-! ## Structs -/

theorem recordLoop_complete {F : Type} {n} {key : DM (List Byte)} {field : List Byte → Option (DM (Val F))} {unknown : DM Unit} {R : List YamEvent → List Byte → Prop}
    {S : List Byte → List YamEvent → Val F → Prop} {known : List Byte → Prop} {ignored : List YamEvent → Prop}
    (hk : Exact z q n true key R) (hsh : ∀ evs v, R evs v → NodeShape evs) (hv : ∀ k m, field k = some m → Exact z q n false m (S k))
    (hu : Exact z q n false unknown (fun evs _ => ignored evs))
    (hno : ∀ k evs v, S k evs v → ∃ m, field k = some m) (hkn : ∀ k, ¬known k → field k = none)
    {body kvs} (h : EachField R S known ignored body kvs) : ∀ {it l it' fuel seen}, Later it → Feeds it (body ++ [.mapEnd]) it' → body.length < fuel → body.length ≤ n →
      ((seen ++ kvs).map (·.1)).Nodup →
      recordLoop key field unknown fuel seen ⟨it, l, false⟩ = .ok (seen ++ kvs, ⟨it', .mapEnd, true⟩) := by
  induction h with
  | nil =>
    intro it l it' fuel seen hl hf hlt _ _
    obtain ⟨f, rfl⟩ : ∃ f, fuel = f + 1 := ⟨fuel - 1, by simp at hlt; omega⟩
    obtain ⟨it1, h1, h2, _⟩ := nextKey_end key (l := l) hl hf
    cases h2
    unfold recordLoop
    rw [bind_ok h1, List.append_nil]; rfl
  | @cons a k b v es kvs hk1 hv1 _ ih =>
    intro it l it' fuel seen hl hf hlt hn hnd
    rw [List.append_assoc, List.append_assoc] at hf
    have hpos : 0 < a.length := List.length_pos_iff.2 (hsh _ _ hk1).ne_nil
    simp only [List.length_append] at hlt hn
    obtain ⟨f, rfl⟩ : ∃ f, fuel = f + 1 := ⟨fuel - 1, by omega⟩
    obtain ⟨m, hm⟩ := hno _ _ _ hv1
    obtain ⟨it1, l1, h1, h2, h3, _⟩ := nextKey_complete hk hsh (l := l) hl hf hk1 (by omega)
    obtain ⟨it2, l2, h4, h5, h6⟩ := value_complete (hv k m hm) (l := l1) h3 h2 hv1 (by omega)
    unfold recordLoop
    rw [bind_ok h1]
    dsimp only
    rw [hm]
    dsimp only
    have hany : seen.any (fun x => x.1 == k) = false := by
      rw [List.any_eq_false]
      intro x hx
      rw [List.map_append, List.nodup_append] at hnd
      have := hnd.2.2 x.1 (List.mem_map_of_mem hx) k (by simp)
      simpa using this
    rw [hany]
    simp only [Bool.false_eq_true, if_false]
    rw [bind_ok h4, ih h6 h5 (by omega) (by omega) (by simpa using hnd)]
    simp
  | @skip a k b es kvs hk1 hnk hb _ ih =>
    intro it l it' fuel seen hl hf hlt hn hnd
    rw [List.append_assoc, List.append_assoc] at hf
    have hpos : 0 < a.length := List.length_pos_iff.2 (hsh _ _ hk1).ne_nil
    simp only [List.length_append] at hlt hn
    obtain ⟨f, rfl⟩ : ∃ f, fuel = f + 1 := ⟨fuel - 1, by omega⟩
    obtain ⟨it1, l1, h1, h2, h3, _⟩ := nextKey_complete hk hsh (l := l) hl hf hk1 (by omega)
    obtain ⟨it2, l2, h4, h5, h6⟩ := value_complete hu (l := l1) (v := ()) h3 h2 hb (by omega)
    unfold recordLoop
    rw [bind_ok h1]
    dsimp only
    rw [hkn k hnk]
    dsimp only
    rw [bind_ok h4, ih h6 h5 (by omega) (by omega) hnd]

theorem recordLoop_sound {F : Type} {n} {key : DM (List Byte)} {field : List Byte → Option (DM (Val F))} {unknown : DM Unit} {R : List YamEvent → List Byte → Prop}
    {S : List Byte → List YamEvent → Val F → Prop} {known : List Byte → Prop} {ignored : List YamEvent → Prop}
    (hk : Exact true q n true key R) (hv : ∀ k m, field k = some m → Exact true q n false m (S k))
    (hu : Exact true q n false unknown (fun evs _ => ignored evs)) (hkn : ∀ k, field k = none → ¬known k) (fuel : Nat) :
    ∀ {it l L it' seen out s'}, Later it → Feeds it L it' → Enough q L it' → (seen.map (·.1)).Nodup → recordLoop key field unknown fuel seen ⟨it, l, false⟩ = .ok (out, s') →
      ∃ body rest kvs, L = body ++ (.mapEnd :: rest) ∧ out = seen ++ kvs ∧ EachField R S known ignored body kvs ∧ (out.map (·.1)).Nodup ∧
        Feeds s'.it rest it' ∧ Enough q rest it' ∧ s'.last = .mapEnd ∧ s'.peeked = true ∧ Later s'.it := by
  induction fuel with
  | zero => intro it l L it' seen out s' _ _ _ _ h; simp [recordLoop, dfail] at h
  | succ f ih =>
    intro it l L it' seen out s' hl hf hd hnd h
    unfold recordLoop at h
    obtain ⟨o, s1, h1, h2⟩ := bind_inv h
    obtain ⟨s1it, s1l, s1p⟩ := s1
    rcases nextKey_sound hk hl hf hd h1 with ⟨rfl, rest, rfl, h3, h4, h5, h6, h7⟩ | ⟨k, a, rest, rfl, rfl, h3, h4, h5, h6, h7, h8⟩
    · simp only [pure_run, Except.ok.injEq, Prod.mk.injEq] at h2
      obtain ⟨rfl, rfl⟩ := h2
      exact ⟨[], rest, [], rfl, by simp, .nil, hnd, h4, h3, h6, h7, h5⟩
    · dsimp only at h2 h4 h6 h7 h8
      subst h6
      cases hfk : field k with
      | none =>
        rw [hfk] at h2
        dsimp only at h2
        obtain ⟨w, s2, h9, h11⟩ := bind_inv h2
        obtain ⟨b, rest1, rfl, h13, h14, h15, h16, h17, h18⟩ := hu.sound rfl _ _ it' _ _ ⟨h8, by simp⟩ rfl ((ahead_fresh rfl).2 h4) h5 h9
        obtain ⟨s2it, s2l, s2p⟩ := s2
        dsimp only at h14 h16 h17 h18
        subst h16
        obtain ⟨body, rest', kvs, rfl, rfl, h19, h20, h21⟩ := ih h18 h14 h15 hnd h11
        exact ⟨a ++ (b ++ body), rest', kvs, by simp, by simp, .skip h3 (hkn k hfk) h13 h19, h20, h21⟩
      | some m =>
        rw [hfk] at h2
        dsimp only at h2
        cases hany : seen.any (fun x => x.1 == k) with
        | true => rw [hany] at h2; simp [dfail] at h2
        | false =>
          rw [hany] at h2
          simp only [Bool.false_eq_true, if_false] at h2
          obtain ⟨w, s2, h9, h11⟩ := bind_inv h2
          obtain ⟨b, rest1, rfl, h13, h14, h15, h16, h17, h18⟩ := (hv k m hfk).sound rfl _ _ it' _ _ ⟨h8, by simp⟩ rfl ((ahead_fresh rfl).2 h4) h5 h9
          obtain ⟨s2it, s2l, s2p⟩ := s2
          dsimp only at h14 h16 h17 h18
          subst h16
          have hnd' : ((seen ++ [(k, w)]).map (·.1)).Nodup := by
            rw [List.map_append, List.nodup_append]
            refine ⟨hnd, by simp, ?_⟩
            intro x hx y hy
            rw [List.any_eq_false] at hany
            obtain ⟨z, hz, rfl⟩ := List.mem_map.1 hx
            simp only [List.map_cons, List.map_nil, List.mem_singleton] at hy
            subst hy
            simpa using hany z hz
          obtain ⟨body, rest', kvs, rfl, rfl, h19, h20, h21⟩ := ih h18 h14 h15 hnd' h11
          exact ⟨a ++ (b ++ body), rest', (k, w) :: kvs, by simp, by simp, .cons h3 h13 h19, h20, h21⟩

theorem visit_record {F : Type} {n} {key : DM (List Byte)} {field : List Byte → Option (DM (Val F))} {unknown : DM Unit} {R : List YamEvent → List Byte → Prop}
    {S : List Byte → List YamEvent → Val F → Prop} {known : List Byte → Prop} {ignored : List YamEvent → Prop}
    (hk : Exact z q n true key R) (hsh : ∀ evs v, R evs v → NodeShape evs) (hv : ∀ k m, field k = some m → Exact z q n false m (S k))
    (hu : Exact z q n false unknown (fun evs _ => ignored evs))
    (hno : ∀ k evs v, S k evs v → ∃ m, field k = some m) (hkn : ∀ k, field k = none ↔ ¬known k) :
    Visit z q n .mapEnd isMapEnd "MapEnd" (recordLoop key field unknown n []) (fun body found => EachField R S known ignored body found ∧ (found.map (·.1)).Nodup) where
  complete := by
    intro it l it' body v hl _ hB hf hn
    have := recordLoop_complete hk hsh hv hu hno (fun k h => (hkn k).2 h) hB.1 (l := l) (seen := []) hl hf hn (by omega) (by simpa using hB.2)
    exact ⟨_, this, finish_last rfl⟩
  sound := by
    intro hz; subst hz; intro it l L it' v s1 s' hl _ hf hd hr hfin
    obtain ⟨body, rest, kvs, h1, rfl, h2, hnd, h3, h4, h5, h6, h7⟩ := recordLoop_sound hk hv hu (fun k h => (hkn k).1 h) n hl hf hd (by simp) hr
    rw [finish_last (by rw [h5]; rfl)] at hfin
    simp only [Except.ok.injEq, Prod.mk.injEq, true_and] at hfin
    subst hfin
    exact ⟨body, rest, h1, ⟨by simpa using h2, hnd⟩, h3, h4, rfl, h5, h7⟩

theorem find_nodup {F : Type} {found : List (List Byte × Val F)} (hnd : (found.map (·.1)).Nodup) (n : List Byte) (v : Val F) :
    (found.find? (·.1 == n)).map (·.2) = some v ↔ (n, v) ∈ found := by
  induction found with
  | nil => simp
  | cons x xs ih =>
    obtain ⟨m, w⟩ := x
    simp only [List.map_cons, List.nodup_cons] at hnd
    rw [List.find?_cons]
    by_cases hm : m = n
    · subst hm
      simp only [BEq.rfl, Option.map_some, Option.some.injEq, List.mem_cons, Prod.mk.injEq, true_and]
      constructor
      · rintro rfl; exact .inl rfl
      · rintro (rfl | h)
        · rfl
        · exact absurd (List.mem_map_of_mem h) hnd.1
    · have : (m == n) = false := by simpa using hm
      simp only [this, List.mem_cons, Prod.mk.injEq]
      rw [ih hnd.2]
      exact ⟨.inr, fun h => h.resolve_left fun hh => hm hh.1.symm⟩

theorem collect_iff {F : Type} {found : List (List Byte × Val F)} (hnd : (found.map (·.1)).Nodup) (fs : List (List Byte × Ty)) (out : List (List Byte × Val F)) :
    collect found fs = some out ↔ Declared found fs out := by
  induction fs generalizing out with
  | nil =>
    simp only [collect, Option.some.injEq]
    exact ⟨by rintro rfl; exact .nil, fun h => by cases h; rfl⟩
  | cons x xs ih =>
    obtain ⟨n, t⟩ := x
    unfold collect
    cases hf : (found.find? (·.1 == n)).map (·.2) with
    | some v =>
      have hin := (find_nodup hnd n v).1 hf
      have hor : (some v <|> missing t) = some v := rfl
      rw [hor]
      constructor
      · intro h
        cases hc : collect found xs with
        | none => rw [hc] at h; simp at h
        | some r =>
          rw [hc] at h
          simp only [Option.some.injEq] at h
          subst h
          exact .present hin ((ih r).1 hc)
      · intro h
        cases h with
        | present h1 h2 =>
          rw [(ih _).2 h2]
          have := (find_nodup hnd n _).2 h1
          rw [hf] at this
          simp only [Option.some.injEq] at this
          rw [this]
        | absent h1 h2 => exact absurd hin (h1 v)
    | none =>
      have hno : ∀ v, (n, v) ∉ found := fun v hv => by
        rw [(find_nodup hnd n v).2 hv] at hf; simp at hf
      have hor : (none <|> missing (F := F) t) = missing t := rfl
      rw [hor]
      constructor
      · intro h
        cases t with
        | option t' =>
          simp only [missing] at h
          cases hc : collect found xs with
          | none => rw [hc] at h; simp at h
          | some r =>
            rw [hc] at h
            simp only [Option.some.injEq] at h
            subst h
            exact .absent hno ((ih r).1 hc)
        | _ => simp [missing] at h
      · intro h
        cases h with
        | present h1 h2 => exact absurd h1 (hno _)
        | absent h1 h2 => simp only [missing]; rw [(ih _).2 h2]

/-- a struct from its mapping -/
theorem exact_build {F : Type} {n p} {fo : FloatOps F} {r : Reading} {deny : Bool} {fs : List (List Byte × Ty)} {m : DM (List (List Byte × Val F))}
    {S : List Byte → List YamEvent → Val F → Prop}
    (h2 : Exact z q n p m (fun evs found => ∃ a tag body, evs = .mapStart a tag :: (body ++ [.mapEnd]) ∧
      EachField (fun evs n => Resolves fo evs (.str n)) S (· ∈ fs.map (·.1)) (fun evs => deny = false ∧ r.ignored evs) body found ∧ (found.map (·.1)).Nodup)) :
    Exact z q n p (build fs m) (ReadsStruct fo r deny (fs.map (·.1)) (Declared · fs) S) := by
  unfold build
  constructor
  · intro s evs it' v hr hp ha hR hn
    obtain ⟨a, tag, body, found, out, rfl, hf, hnd, hd, rfl⟩ := hR
    obtain ⟨l, h3, h4⟩ := h2.complete s _ it' found hr hp ha ⟨a, tag, body, rfl, hf, hnd⟩ hn
    refine ⟨l, h3, ?_⟩
    rw [bind_ok h4, (collect_iff hnd fs out).2 hd]; rfl
  · intro hz s L it' v s' hr hp ha hd hrun
    obtain ⟨found, s1, h3, h4⟩ := bind_inv hrun
    obtain ⟨evs, rest, h5, ⟨a, tag, body, rfl, hf, hnd⟩, h6⟩ := h2.sound hz s L it' found s1 hr hp ha hd h3
    cases hc : collect found fs with
    | none => rw [hc] at h4; simp [dfail] at h4
    | some out =>
      rw [hc] at h4
      simp only [pure_run, Except.ok.injEq, Prod.mk.injEq] at h4
      obtain ⟨rfl, rfl⟩ := h4
      exact ⟨_, rest, h5, ⟨a, tag, body, found, out, rfl, hf, hnd, (collect_iff hnd fs out).1 hc, rfl⟩, h6⟩

theorem field_none {F : Type} (n : Nat) (fo : FloatOps F) (ofInt : Int → F) (k : List Byte) : (fs : List (List Byte × Ty)) →
    (deField fo ofInt n k fs = none ↔ ¬(k ∈ fs.map (·.1)))
  | [] => by simp [deField]
  | (x, t) :: fs => by
    rw [deField]
    by_cases hx : x = k
    · simp [hx]
    · rw [if_neg hx, field_none n fo ofInt k fs]
      simp [Ne.symm hx]

theorem exact_fieldMap {F : Type} {n} {fo : FloatOps F} {ofInt : Int → F} {deny : Bool} {fs : List (List Byte × Ty)} (hdeny : (deny || !z) = true)
    (hv : ∀ k m, deField fo ofInt n k fs = some m → Exact z q n false m (ReadsField fo ofInt (textReading fo) k fs))
    (hno : ∀ k evs v, ReadsField fo ofInt (textReading fo) k fs evs v → ∃ m, deField fo ofInt n k fs = some m) (p : Bool) :
    Exact z q n p (deserializeMap (recordLoop (deScalar fo acceptName) (fun k => deField fo ofInt n k fs) (onUnknown fo n deny) n []))
      (fun evs found => ∃ a tag body, evs = .mapStart a tag :: (body ++ [.mapEnd]) ∧
      EachField (fun evs n => Resolves fo evs (.str n)) (fun k => ReadsField fo ofInt (textReading fo) k fs) (· ∈ fs.map (·.1))
        (fun evs => deny = false ∧ (textReading fo).ignored evs) body found ∧ (found.map (·.1)).Nodup) :=
  exact_map (p := p) (visit_record (exact_name n true fo) (fun evs v ⟨x, h, _⟩ => by rw [h]; exact .scalar x) hv (exact_unknown fo n deny hdeny) hno
    (fun k => field_none n fo ofInt k fs))

theorem exact_record {F : Type} {n} {fo : FloatOps F} {ofInt : Int → F} {deny : Bool} {fs : List (List Byte × Ty)} (hdeny : (deny || !z) = true)
    (hv : ∀ k m, deField fo ofInt n k fs = some m → Exact z q n false m (ReadsField fo ofInt (textReading fo) k fs))
    (hno : ∀ k evs v, ReadsField fo ofInt (textReading fo) k fs evs v → ∃ m, deField fo ofInt n k fs = some m) :
    Exact z q n false (deTy fo ofInt n (.record deny fs)) (Reads fo ofInt (textReading fo) (.record deny fs)) := by
  have h2 : Exact z q n false _ _ := exact_any (k := anyMap (recordLoop (deScalar fo acceptName) (fun k => deField fo ofInt n k fs) (onUnknown fo n deny) n []))
    (fun e => match e with | .mapStart _ _ => true | _ => false) _ rfl
    (by intro e he; cases e <;> first | (simp at he; done) | rfl) (by intro e s r he; cases e <;> first | (simp at he; done) | simp [dfail])
    (by intro s r; simp [dfail]) (exact_fieldMap hdeny hv hno true) (by rintro evs v ⟨a, tag, body, rfl, -⟩; exact ⟨_, _, rfl, rfl⟩)
  rw [deTy]
  refine (exact_build h2).congr fun evs v => ?_
  rw [Reads]

/-! ## Tuples -/

theorem reads_last {F : Type} {fo : FloatOps F} {ofInt : Int → F} {r : Reading} : (t : Ty) → (evs : List YamEvent) → (v : Val F) →
    Reads fo ofInt r t evs v → endsInSeq t = false → evs.getLast? ≠ some .seqEnd
  | .int t, evs, v, h, _ => by
    rw [Reads] at h; obtain ⟨x, i, rfl, -⟩ := h; simp
  | .bool, evs, v, h, _ => by
    rw [Reads] at h; obtain ⟨i, ⟨x, rfl, -⟩, -⟩ := h; simp
  | .float, evs, v, h, _ => by
    rw [Reads] at h; obtain ⟨i, ⟨x, rfl, -⟩, -⟩ | ⟨i, ⟨x, rfl, -⟩, -⟩ := h <;> simp
  | .str, evs, v, h, _ => by
    rw [Reads] at h; obtain ⟨i, ⟨x, rfl, -⟩, -⟩ := h; simp
  | .unit, evs, v, h, _ => by
    rw [Reads] at h; obtain ⟨x, rfl, -⟩ := h; simp
  | .option t, evs, v, h, he => by
    rw [Reads] at h
    obtain ⟨x, rfl, -⟩ | ⟨-, y, hy, -⟩ := h
    · simp
    · exact reads_last t evs y hy (by simpa [endsInSeq] using he)
  | .vec t, evs, v, h, he => by simp [endsInSeq] at he
  | .map _ _, evs, v, h, he => by
    rw [Reads] at h; obtain ⟨a, tag, body, vs, rfl, -⟩ := h; rw [getLast?_end]; simp
  | .tuple _, evs, v, h, he => by simp [endsInSeq] at he
  | .record _ _, evs, v, h, he => by
    rw [Reads] at h; obtain ⟨a, tag, body, vs, out, rfl, -⟩ := h; rw [getLast?_end]; simp
  | .choice _, evs, v, h, he => by
    rw [Reads] at h
    obtain ⟨x, n, rfl, -⟩ | ⟨a, tag, key, body, n, y, rfl, -⟩ := h
    · simp
    · rw [← List.append_assoc, getLast?_end]; simp

/-- the last event before the end of a tuple -/
def Ended {F : Type} (fo : FloatOps F) (ofInt : Int → F) (ts : List Ty) (l l1 : YamEvent) : Prop :=
  (ts = [] ∧ l1 = l) ∨ ∃ t a v, ts.getLast? = some t ∧ Reads fo ofInt (textReading fo) t a v ∧ a.getLast? = some l1

theorem ended_cons {F : Type} {fo : FloatOps F} {ofInt : Int → F} {t ts a v l l0 l1} (h : Ended fo ofInt ts l l1) (hv : Reads fo ofInt (textReading fo) t a v)
    (ha : a.getLast? = some l) : Ended fo ofInt (t :: ts) l0 l1 := by
  rcases h with ⟨rfl, rfl⟩ | ⟨t', a', v', h1, h2, h3⟩
  · exact .inr ⟨t, a, v, rfl, hv, ha⟩
  · refine .inr ⟨t', a', v', ?_, h2, h3⟩
    cases ts with
    | nil => simp at h1
    | cons x xs => rw [List.getLast?_cons_cons]; exact h1

theorem deTuple_complete {F : Type} {n} {fo : FloatOps F} {ofInt : Int → F} (ts : List Ty)
    (hs : ∀ t ∈ ts, Exact z q n true (deTy fo ofInt n t) (Reads fo ofInt (textReading fo) t)) :
    ∀ {it l body rest it' vs}, Later it → ReadsTuple fo ofInt (textReading fo) ts body vs → Feeds it (body ++ rest) it' → body.length ≤ n →
      ∃ it1 l1, deTuple fo ofInt n ts ⟨it, l, false⟩ = .ok (vs, ⟨it1, l1, false⟩) ∧ Feeds it1 rest it' ∧ Later it1 ∧ Ended fo ofInt ts l l1 := by
  induction ts with
  | nil =>
    intro it l body rest it' vs hl hR hf _
    simp only [ReadsTuple] at hR
    obtain ⟨rfl, rfl⟩ := hR
    exact ⟨it, l, by rw [deTuple]; rfl, hf, hl, .inl ⟨rfl, rfl⟩⟩
  | cons t ts ih =>
    intro it l body rest it' vs hl hR hf hn
    rw [ReadsTuple] at hR
    obtain ⟨a, es, v, vs', rfl, hv, hr, rfl⟩ := hR
    rw [List.append_assoc] at hf
    simp only [List.length_append] at hn
    obtain ⟨it1, l1, h1, h2, h3, h4⟩ := nextElement_complete (hs t (by simp)) (fun e w h => reads_shape t e w h) (l := l) hl hf hv (by omega)
    obtain ⟨it2, l2, h5, h6, h7, h8⟩ := ih (fun t' ht' => hs t' (by simp [ht'])) (l := l1) h3 hr h2 (by omega)
    refine ⟨it2, l2, ?_, h6, h7, ended_cons h8 hv h4⟩
    rw [deTuple, bind_ok h1]
    dsimp only
    rw [bind_ok h5]; rfl

theorem deTuple_sound {F : Type} {n} {fo : FloatOps F} {ofInt : Int → F} (ts : List Ty)
    (hs : ∀ t ∈ ts, Exact true q n true (deTy fo ofInt n t) (Reads fo ofInt (textReading fo) t)) :
    ∀ {it l L it' vs s'}, Later it → Feeds it L it' → Enough q L it' → deTuple fo ofInt n ts ⟨it, l, false⟩ = .ok (vs, s') →
      ∃ body rest, L = body ++ rest ∧ ReadsTuple fo ofInt (textReading fo) ts body vs ∧ Feeds s'.it rest it' ∧ Enough q rest it' ∧ s'.peeked = false ∧ Later s'.it ∧
        Ended fo ofInt ts l s'.last := by
  induction ts with
  | nil =>
    intro it l L it' vs s' hl hf hd h
    rw [deTuple] at h
    simp only [pure_run, Except.ok.injEq, Prod.mk.injEq] at h
    obtain ⟨rfl, rfl⟩ := h
    exact ⟨[], L, rfl, by simp [ReadsTuple], hf, hd, rfl, hl, .inl ⟨rfl, rfl⟩⟩
  | cons t ts ih =>
    intro it l L it' vs s' hl hf hd h
    rw [deTuple] at h
    obtain ⟨o, s1, h1, h2⟩ := bind_inv h
    obtain ⟨s1it, s1l, s1p⟩ := s1
    rcases nextElement_sound (hs t (by simp)) hl hf hd h1 with ⟨rfl, -⟩ | ⟨v, a, rest, rfl, rfl, h3, h4, h5, h6, h7, h8⟩
    · simp [dfail] at h2
    · dsimp only at h2 h4 h6 h7 h8
      subst h6
      obtain ⟨vs', s2, h9, h10⟩ := bind_inv h2
      simp only [pure_run, Except.ok.injEq, Prod.mk.injEq] at h10
      obtain ⟨rfl, rfl⟩ := h10
      obtain ⟨body, rest', rfl, h11, h12, h13, h14, h15, h16⟩ := ih (fun t' ht' => hs t' (by simp [ht'])) h8 h4 h5 h9
      exact ⟨a ++ body, rest', by simp, by rw [ReadsTuple]; exact ⟨a, body, v, vs', rfl, h3, h11, rfl⟩, h12, h13, h14, h15, ended_cons h16 h3 h7⟩

theorem visit_tuple {F : Type} {n} {fo : FloatOps F} {ofInt : Int → F} (ts : List Ty)
    (hs : ∀ t ∈ ts, Exact z q n true (deTy fo ofInt n t) (Reads fo ofInt (textReading fo) t)) (hlast : ∀ t, ts.getLast? = some t → endsInSeq t = false) :
    Visit z q n .seqEnd isSeqEnd "SeqEnd" (deTuple fo ofInt n ts) (ReadsTuple fo ofInt (textReading fo) ts) := by
  have hend : ∀ l l1, isSeqEnd l = false → Ended fo ofInt ts l l1 → isSeqEnd l1 = false := by
    intro l l1 hl h
    rcases h with ⟨rfl, rfl⟩ | ⟨t, a, v, h1, h2, h3⟩
    · exact hl
    · have := reads_last t a v h2 (hlast t h1)
      rw [h3] at this
      cases l1 <;> first | rfl | exact absurd rfl this
  constructor
  · intro it l it' body v hl hse hB hf hn
    obtain ⟨it1, l1, h1, h2, h3, h4⟩ := deTuple_complete ts hs (l := l) hl hB hf (by omega)
    refine ⟨_, h1, ?_⟩
    obtain ⟨it2, h5, h6⟩ := nextEl_fresh (l := l1) h2
    cases h6
    unfold finish
    rw [bind_ok (last_run _), if_neg (by simpa using hend _ _ hse h4), bind_ok h5]
    rfl
  · intro hz; subst hz; intro it l L it' v s1 s' hl hse hf hd hv hfin
    obtain ⟨body, rest, rfl, h1, h2, h3, h4, h5, h6⟩ := deTuple_sound ts hs hl hf hd hv
    obtain ⟨s1it, s1l, s1p⟩ := s1
    dsimp only at h2 h4 h5 h6
    subst h4
    unfold finish at hfin
    rw [bind_ok (last_run _), if_neg (by simpa using hend _ _ hse h6)] at hfin
    cases rest with
    | nil =>
      cases h2
      rcases nextEl_stuck (l := s1l) h3.nil.2 with ⟨s2, h7⟩ | ⟨e, h7⟩
      · rw [bind_ok h7] at hfin
        dsimp only at hfin
        rw [bind_ok (last_run _)] at hfin; simp [dfail] at hfin
      · rw [bind_err h7] at hfin; simp at hfin
    | cons e es =>
      obtain ⟨it2, h7, h8⟩ := nextEl_fresh (l := s1l) h2
      rw [bind_ok h7] at hfin
      dsimp only at hfin
      have hl2 : Later it2 := by
        cases h2 with
        | cons hn hr =>
          unfold nextEl at h7
          simp only [Bool.false_eq_true, if_false, hn, Except.ok.injEq, Prod.mk.injEq, DSt.mk.injEq, true_and, and_true] at h7
          rw [← h7]; exact (next_later h5 hn).1
      cases he : isSeqEnd e with
      | false =>
        rw [he] at hfin
        simp only [Bool.false_eq_true, if_false] at hfin
        rw [bind_ok (last_run _)] at hfin
        simp [dfail] at hfin
      | true =>
        rw [he] at hfin
        simp only [if_true, skip_run, Except.ok.injEq, Prod.mk.injEq, true_and] at hfin
        subst hfin
        have he' : e = .seqEnd := by cases e <;> first | rfl | simp [isSeqEnd] at he
        subst he'
        exact ⟨body, es, rfl, h1, h8, h3.tail (by simp), rfl, rfl, hl2⟩

theorem exact_tuple {F : Type} {n} {fo : FloatOps F} {ofInt : Int → F} (ts : List Ty)
    (hs : ∀ t ∈ ts, Exact z q n true (deTy fo ofInt n t) (Reads fo ofInt (textReading fo) t)) (hlast : ∀ t, ts.getLast? = some t → endsInSeq t = false) :
    Exact z q n false (deTy fo ofInt n (.tuple ts)) (Reads fo ofInt (textReading fo) (.tuple ts)) := by
  have h2 : Exact z q n false _ _ := exact_any (k := anySeq (deTuple fo ofInt n ts))
    (fun e => match e with | .seqStart _ _ => true | _ => false) _ rfl
    (by intro e he; cases e <;> first | (simp at he; done) | rfl) (by intro e s r he; cases e <;> first | (simp at he; done) | simp [dfail])
    (by intro s r; simp [dfail]) (exact_seq (p := true) (visit_tuple ts hs hlast)) (by rintro evs v ⟨a, tag, body, rfl, -⟩; exact ⟨_, _, rfl, rfl⟩)
  rw [deTy]
  refine (h2.map Val.tuple).congr fun evs v => ?_
  rw [Reads]
  exact ⟨fun ⟨vs, ⟨a, tag, body, h, h'⟩, hv⟩ => ⟨a, tag, body, vs, h, h', hv⟩, fun ⟨a, tag, body, vs, h, h', hv⟩ => ⟨vs, ⟨a, tag, body, h, h'⟩, hv⟩⟩

/-! ## Enums -/

theorem isUnit_iff (name : List Byte) (vs : List (List Byte × Variant)) : isUnit name vs = true ↔ UnitVariant name vs := by
  induction vs with
  | nil => exact ⟨fun h => by simp [isUnit] at h, fun h => by cases h⟩
  | cons x vs ih =>
    obtain ⟨n, v⟩ := x
    unfold isUnit
    by_cases hn : n = name
    · subst hn
      rw [if_pos rfl]
      constructor
      · intro h
        cases v <;> first | exact .here | simp at h
      · intro h
        cases h with
        | here => rfl
        | there h _ => exact absurd rfl h
    · rw [if_neg hn, ih]
      constructor
      · exact .there hn
      · intro h
        cases h with
        | here => exact absurd rfl hn
        | there _ h => exact h

/-- in an enum without contents, no variant can be read from a mapping -/
theorem deVariant_units {F : Type} {n} {fo : FloatOps F} {ofInt : Int → F} {vs : List (List Byte × Variant)} (h : onlyUnits vs = true) (k : List Byte) :
    ∀ m, deVariant fo ofInt n k vs = some m → m = dfail .panicked := by
  induction vs with
  | nil => simp [deVariant]
  | cons x vs ih =>
    obtain ⟨y, v⟩ := x
    cases v <;> first | (simp [onlyUnits] at h; done) | skip
    simp only [onlyUnits] at h
    intro m hm
    rw [deVariant] at hm
    by_cases hy : y = k
    · rw [if_pos hy] at hm
      simp only [Option.some.injEq] at hm
      rw [← hm, deContents]
    · rw [if_neg hy] at hm
      exact ih h m hm

theorem readsVariant_units {F : Type} {fo : FloatOps F} {ofInt : Int → F} {r : Reading} {vs : List (List Byte × Variant)} (h : onlyUnits vs = true) (k : List Byte)
    (evs v) : ¬ReadsVariant fo ofInt r k vs evs v := by
  induction vs with
  | nil => simp [ReadsVariant]
  | cons x vs ih =>
    obtain ⟨y, v⟩ := x
    cases v <;> first | (simp [onlyUnits] at h; done) | skip
    simp only [onlyUnits] at h
    rw [ReadsVariant, ReadsContents]
    rintro (⟨-, h⟩ | ⟨-, h'⟩)
    · exact h
    · exact ih h h'

theorem exact_units {F : Type} {n} {fo : FloatOps F} {ofInt : Int → F} {vs : List (List Byte × Variant)} (p : Bool) {variant : List Byte → Option (DM (Val F))}
    (hvar : ∀ k m, variant k = some m → m = dfail .panicked) (h : onlyUnits vs = true) :
    Exact z q n p (deEnum fo vs variant) (Reads fo ofInt (textReading fo) (.choice vs)) := by
  refine Exact.of_scalar (fun x v => isUnit x.value vs = true ∧ v = .variant x.value .unit) ?_ _ rfl ?_ ?_ ?_ ?_
  · intro evs v
    simp only [Reads]
    constructor
    · rintro (⟨x, k, rfl, rfl, h1, rfl⟩ | ⟨a, tag, key, body, k, y, -, -, h1, -⟩)
      · exact ⟨x, rfl, (isUnit_iff _ _).2 h1, rfl⟩
      · exact absurd h1 (readsVariant_units h _ _ _)
    · rintro ⟨x, rfl, h1, rfl⟩
      exact .inl ⟨x, _, rfl, rfl, (isUnit_iff _ _).1 h1, rfl⟩
  · rintro x s v ⟨h1, rfl⟩
    dsimp only
    rw [bind_ok (skip_run s), h1]; rfl
  · intro x s v s' h
    dsimp only at h
    rw [bind_ok (skip_run s)] at h
    cases hp : isUnit x.value vs with
    | false => rw [hp] at h; simp [dfail] at h
    | true =>
      rw [hp] at h
      simp only [if_true, pure_run, Except.ok.injEq, Prod.mk.injEq] at h
      exact ⟨⟨rfl, h.1.symm⟩, h.2.symm⟩
  · intro e s r he hh
    cases e with
    | scalar x => exact absurd rfl (he x)
    | mapStart a tag =>
      dsimp only at hh
      rw [bind_ok (skip_run s)] at hh
      obtain ⟨k, s1, h1, h2⟩ := bind_inv hh
      cases hk : variant k with
      | none => rw [hk] at h2; simp [dfail] at h2
      | some m =>
        rw [hk] at h2
        dsimp only at h2
        rw [hvar k m hk] at h2
        obtain ⟨v, s2, h3, -⟩ := bind_inv h2
        simp [dfail] at h3
    | _ => simp [dfail] at hh
  · intro s r; simp [dfail]

/-! ## All types -/

mutual
  theorem exact_ty {F : Type} (n : Nat) (fo : FloatOps F) (ofInt : Int → F) : (p : Bool) → (t : Ty) → Handled z p t = true → (q = true → WithoutOptions t = true) →
      Exact z q n p (deTy fo ofInt n t) (Reads fo ofInt (textReading fo) t)
    | p, .int t, _, _ => by rw [deTy]; exact exact_int n p fo ofInt t
    | p, .bool, _, _ => by rw [deTy]; exact exact_bool n p fo ofInt
    | p, .float, _, _ => by rw [deTy]; exact exact_float n p fo ofInt
    | p, .str, _, _ => by rw [deTy]; exact exact_str n p fo ofInt
    | p, .unit, _, _ => by rw [deTy]; exact exact_unit n p fo ofInt
    | p, .option t, h, ho => by
      have hq : q = false := by cases q <;> simp_all [WithoutOptions]
      simp only [Handled, Bool.and_eq_true, Bool.not_eq_true'] at h
      obtain ⟨rfl, h⟩ := h
      rw [deTy]
      exact exact_option hq (exact_ty n fo ofInt true t h (by simp [hq])) (fun e w hh => reads_shape t e w hh)
    | p, .vec t, h, ho => by
      simp only [Handled] at h
      rw [deTy]
      refine ((exact_seq (visit_vec (exact_ty n fo ofInt true t h ho) (fun e w hh => reads_shape t e w hh))).map Val.vec).congr fun evs v => ?_
      rw [Reads]
      exact ⟨fun ⟨vs, ⟨a, tag, body, h, h'⟩, hv⟩ => ⟨a, tag, body, vs, h, h', hv⟩, fun ⟨a, tag, body, vs, h, h', hv⟩ => ⟨vs, ⟨a, tag, body, h, h'⟩, hv⟩⟩
    | p, .map k v, h, ho => by
      simp only [WithoutOptions, Bool.and_eq_true] at ho
      simp only [Handled, Bool.and_eq_true] at h
      rw [deTy]
      refine ((exact_map (visit_map (exact_ty n fo ofInt true k h.1 fun hq => (ho hq).1) (fun e w hh => reads_shape k e w hh) (exact_ty n fo ofInt false v h.2 fun hq => (ho hq).2))).map
        Val.map).congr fun evs v => ?_
      rw [Reads]
      exact ⟨fun ⟨vs, ⟨a, tag, body, h, h'⟩, hv⟩ => ⟨a, tag, body, vs, h, h', hv⟩, fun ⟨a, tag, body, vs, h, h', hv⟩ => ⟨vs, ⟨a, tag, body, h, h'⟩, hv⟩⟩
    | p, .tuple ts, h, ho => by
      simp only [Handled, Bool.and_eq_true, Bool.not_eq_true'] at h
      obtain ⟨rfl, h⟩ := h
      obtain ⟨h1, h2⟩ := exact_components n fo ofInt ts h ho
      exact exact_tuple ts h1 h2
    | p, .choice vs, h, _ => by
      simp only [Handled] at h
      rw [deTy]
      exact exact_units p (fun k => deVariant_units h k) h
    | p, .record deny fs, h, ho => by
      simp only [Handled, Bool.and_eq_true] at h
      obtain ⟨⟨hp, hdeny⟩, h⟩ := h
      simp only [Bool.not_eq_true'] at hp
      subst hp
      exact exact_record hdeny (fun k m => exact_fields n fo ofInt fs h ho k m) (fun k evs v => field_exists n fo ofInt fs k evs v)
  theorem exact_components {F : Type} (n : Nat) (fo : FloatOps F) (ofInt : Int → F) : (ts : List Ty) → HandledComponents z ts = true → (q = true → WithoutOptionsAll ts = true) →
      (∀ t ∈ ts, Exact z q n true (deTy fo ofInt n t) (Reads fo ofInt (textReading fo) t)) ∧ (∀ t, ts.getLast? = some t → endsInSeq t = false)
    | [], _, _ => by simp
    | [t], h, ho => by
      simp only [HandledComponents, Bool.and_eq_true, Bool.not_eq_true'] at h
      have := exact_ty n fo ofInt true t h.1 fun hq => by simpa [WithoutOptionsAll] using ho hq
      exact ⟨by simpa using this, by simpa using h.2⟩
    | t :: t' :: ts, h, ho => by
      rw [WithoutOptionsAll, Bool.and_eq_true] at ho
      simp only [HandledComponents, Bool.and_eq_true] at h
      have h1 := exact_ty n fo ofInt true t h.1 fun hq => (ho hq).1
      obtain ⟨h2, h3⟩ := exact_components n fo ofInt (t' :: ts) h.2 fun hq => (ho hq).2
      refine ⟨?_, ?_⟩
      · intro x hx
        rw [List.mem_cons] at hx
        rcases hx with rfl | hx
        · exact h1
        · exact h2 x hx
      · rw [List.getLast?_cons_cons]; exact h3
  theorem exact_fields {F : Type} (n : Nat) (fo : FloatOps F) (ofInt : Int → F) : (fs : List (List Byte × Ty)) → HandledFields z fs = true → (q = true → WithoutOptionsFields fs = true) →
      (k : List Byte) → (m : DM (Val F)) → deField fo ofInt n k fs = some m → Exact z q n false m (ReadsField fo ofInt (textReading fo) k fs)
    | [], _, _, k, m, h => by simp [deField] at h
    | (x, t) :: fs, hh, ho, k, m, h => by
      simp only [WithoutOptionsFields, Bool.and_eq_true] at ho
      simp only [HandledFields, Bool.and_eq_true] at hh
      rw [deField] at h
      by_cases hx : x = k
      · rw [if_pos hx] at h
        simp only [Option.some.injEq] at h
        subst h
        refine (exact_ty n fo ofInt false t hh.1 fun hq => (ho hq).1).congr fun evs v => ?_
        rw [ReadsField]; simp [hx]
      · rw [if_neg hx] at h
        refine (exact_fields n fo ofInt fs hh.2 (fun hq => (ho hq).2) k m h).congr fun evs v => ?_
        rw [ReadsField]; simp [hx]
  theorem field_exists {F : Type} (n : Nat) (fo : FloatOps F) (ofInt : Int → F) : (fs : List (List Byte × Ty)) → (k : List Byte) → (evs : List YamEvent) →
      (v : Val F) → ReadsField fo ofInt (textReading fo) k fs evs v → ∃ m, deField fo ofInt n k fs = some m
    | [], k, evs, v, h => by simp [ReadsField] at h
    | (x, t) :: fs, k, evs, v, h => by
      rw [ReadsField] at h
      rw [deField]
      by_cases hx : x = k
      · exact ⟨_, if_pos hx⟩
      · rw [if_neg hx]
        exact field_exists n fo ofInt fs k evs v (by simpa [hx] using h)
end

/-! ## Whole documents -/

/-- The computation returns the value of one item of `R`, and may leave the reader anywhere. -/
structure Top {α : Type} (z q : Bool) (n : Nat) (p : Bool) (m : DM α) (R : List YamEvent → α → Prop) : Prop where
  complete : ∀ s evs it' v, Ready s → s.peeked = p → Ahead s evs it' → R evs v → evs.length ≤ n → ∃ s', m s = .ok (v, s')
  sound : z = true → ∀ s L it' v s', Ready s → s.peeked = p → Ahead s L it' → Enough q L it' → m s = .ok (v, s') →
    ∃ evs rest, L = evs ++ rest ∧ R evs v ∧ Enough q rest it'

theorem Exact.top {α : Type} {n p} {m : DM α} {R : List YamEvent → α → Prop} (h : Exact z q n p m R) : Top z q n p m R where
  complete := fun s evs it' v a b c d e => by
    obtain ⟨l, -, h1⟩ := h.complete s evs it' v a b c d e
    exact ⟨_, h1⟩
  sound := fun hz s L it' v s' a b c d e => by
    obtain ⟨evs, rest, h1, h2, -, h3, -⟩ := h.sound hz s L it' v s' a b c d e
    exact ⟨evs, rest, h1, h2, h3⟩

theorem top_enum {F : Type} {n} {fo : FloatOps F} {ofInt : Int → F} {vs : List (List Byte × Variant)} (p : Bool) {variant : List Byte → Option (DM (Val F))}
    (hvar : ∀ k m, variant k = some m → Exact z q n false m (ReadsVariant fo ofInt (textReading fo) k vs))
    (hno : ∀ k evs v, ReadsVariant fo ofInt (textReading fo) k vs evs v → ∃ m, variant k = some m) :
    Top z q n p (deEnum fo vs variant) (Reads fo ofInt (textReading fo) (.choice vs)) where
  complete := by
    intro s evs it' v hr hp ha hR hn
    simp only [Reads] at hR
    rcases hR with ⟨x, k, rfl, rfl, h1, rfl⟩ | ⟨a, tag, key, body, k, y, rfl, h1, h2, rfl⟩
    · obtain ⟨it1, h2, h3, _⟩ := skipDoc_cons hr ha
      refine ⟨⟨it1, .scalar x, false⟩, ?_⟩
      unfold deEnum
      rw [bind_ok h2]
      dsimp only
      rw [bind_ok (skip_run _), (isUnit_iff _ _).2 h1]; rfl
    · obtain ⟨it1, h3, h4, h5, _⟩ := skipDoc_cons hr ha
      simp only [List.length_cons, List.length_append] at hn
      obtain ⟨it2, l2, h6, h7, h8⟩ := value_complete (exact_name (z := z) (q := q) n false fo) (l := .mapStart a tag) h5 h4 h1 (by omega)
      obtain ⟨m, hm⟩ := hno _ _ _ h2
      obtain ⟨it3, l3, h9, h10, h11⟩ := value_complete (hvar k m hm) (l := l2) h8 h7 h2 (by omega)
      obtain ⟨it4, h12, h13⟩ := nextEl_fresh (l := l3) h10
      refine ⟨⟨it4, .mapEnd, true⟩, ?_⟩
      unfold deEnum
      rw [bind_ok h3]
      dsimp only
      rw [bind_ok (skip_run _)]
      dsimp only
      rw [bind_ok h6, hm]
      dsimp only
      rw [bind_ok h9, bind_ok h12]; rfl
  sound := by
    intro hz; subst hz
    intro s L it' v s' hr hp ha hd h
    cases L with
    | nil => unfold deEnum at h; exact absurd h (skipDoc_end ha hd.nil.2 fun s => by simp [dfail])
    | cons e es =>
      obtain ⟨it1, h1, h2, h3, _⟩ := skipDoc_cons hr ha
      unfold deEnum at h
      rw [bind_ok h1] at h
      cases e with
      | scalar x =>
        dsimp only at h
        rw [bind_ok (skip_run _)] at h
        cases hu : isUnit x.value vs with
        | false => rw [hu] at h; simp [dfail] at h
        | true =>
          rw [hu] at h
          simp only [if_true, pure_run, Except.ok.injEq, Prod.mk.injEq] at h
          refine ⟨[.scalar x], es, rfl, ?_, hd.tail (by simp)⟩
          simp only [Reads]
          exact .inl ⟨x, _, rfl, rfl, (isUnit_iff _ _).1 hu, h.1.symm⟩
      | mapStart a tag =>
        dsimp only at h
        rw [bind_ok (skip_run _)] at h
        dsimp only at h
        obtain ⟨k, s1, h4, h5⟩ := bind_inv h
        obtain ⟨key, rest1, rfl, h6, h7, h8, h9, -, h10⟩ := (exact_name (z := true) (q := q) n false fo).sound rfl _ _ it' _ _ ⟨h3, by simp⟩ rfl ((ahead_fresh rfl).2 h2)
          (hd.tail (by simp)) h4
        obtain ⟨s1it, s1l, s1p⟩ := s1
        dsimp only at h7 h9 h10
        subst h9
        cases hk : variant k with
        | none => rw [hk] at h5; simp [dfail] at h5
        | some m =>
          rw [hk] at h5
          dsimp only at h5
          obtain ⟨y, s2, h11, h12⟩ := bind_inv h5
          obtain ⟨body, rest2, rfl, h13, h14, h15, h16, -, h17⟩ := (hvar k m hk).sound rfl _ _ it' _ _ ⟨h10, by simp⟩ rfl ((ahead_fresh rfl).2 h7) h8 h11
          obtain ⟨s2it, s2l, s2p⟩ := s2
          dsimp only at h14 h16 h17
          subst h16
          cases rest2 with
          | nil =>
            cases h14
            rcases nextEl_stuck (l := s2l) h15.nil.2 with ⟨s3, h18⟩ | ⟨e, h18⟩
            · rw [bind_ok h18] at h12
              dsimp only at h12
              rw [bind_ok (last_run _)] at h12; simp [dfail] at h12
            · rw [bind_err h18] at h12; simp at h12
          | cons e2 es2 =>
            obtain ⟨it4, h18, h19⟩ := nextEl_fresh (l := s2l) h14
            rw [bind_ok h18] at h12
            cases e2 with
            | mapEnd =>
              simp only [pure_run, Except.ok.injEq, Prod.mk.injEq] at h12
              refine ⟨.mapStart a tag :: (key ++ (body ++ [.mapEnd])), es2, by simp, ?_, h15.tail (by simp)⟩
              simp only [Reads]
              exact .inr ⟨a, tag, key, body, k, y, rfl, h6, h13, h12.1.symm⟩
            | _ =>
              dsimp only at h12
              rw [bind_ok (last_run _)] at h12
              simp [dfail] at h12
      | _ => simp [dfail] at h

theorem top_option {F : Type} {n} {fo : FloatOps F} {ofInt : Int → F} {t : Ty} {m : DM (Val F)}
    (hq : q = false) (h : Top z q n true m (Reads fo ofInt (textReading fo) t)) (hne : ∀ evs v, Reads fo ofInt (textReading fo) t evs v → NodeShape evs) :
    Top z q n false (do
      if ← peekNull then do
        skip
        pure .none
      else do pure (.some (← m))) (Reads fo ofInt (textReading fo) (.option t)) where
  complete := by
    intro s evs it' v hr hp ha hR hn
    simp only [Reads] at hR
    rcases hR with ⟨x, rfl, hx, rfl⟩ | ⟨hnn, y, hy, rfl⟩
    · obtain ⟨it1, b, h1, h2, h3, _⟩ := peekNull_cons hr ha
      have hb := h2.2 ⟨x, rfl, hx⟩
      subst hb
      cases h3
      refine ⟨⟨it', .scalar x, false⟩, ?_⟩
      rw [bind_ok h1]; rfl
    · cases evs with
      | nil => exact absurd rfl (hne _ _ hy).ne_nil
      | cons e es =>
        obtain ⟨it1, b, h1, h2, h3, h4, h5⟩ := peekNull_cons hr ha
        rw [hp] at h1
        obtain ⟨s', h6⟩ := h.complete ⟨it1, e, true⟩ (e :: es) it' _ ⟨h4, fun _ => h5⟩ rfl (ahead_peeked h3) hy hn
        refine ⟨s', ?_⟩
        rw [bind_ok h1]
        have hb : b = false := by
          cases b with
          | false => rfl
          | true =>
            obtain ⟨x, rfl, hx⟩ := h2.1 rfl
            exfalso
            cases es with
            | nil => exact hnn x rfl hx
            | cons e' es' =>
              have := (hne _ _ hy).scalar'
              simp at this
        subst hb
        simp only [Bool.not_false]
        rw [if_neg (by simp), bind_ok h6]; rfl
  sound := by
    intro hz; subst hz; intro s L it' v s' hr hp ha hd hrun
    cases L with
    | nil => exact absurd hd.nil.1 (by simp [hq])
    | cons e es =>
      obtain ⟨it1, b, h1, h2, h3, h4, h5⟩ := peekNull_cons hr ha
      rw [bind_ok h1] at hrun
      cases b with
      | true =>
        obtain ⟨x, rfl, hx⟩ := h2.1 rfl
        simp only [if_true] at hrun
        rw [bind_ok (skip_run _)] at hrun
        simp only [pure_run, Except.ok.injEq, Prod.mk.injEq] at hrun
        obtain ⟨rfl, rfl⟩ := hrun
        exact ⟨[.scalar x], es, rfl, by rw [Reads]; exact .inl ⟨x, rfl, hx, rfl⟩, hd.tail (by simp)⟩
      | false =>
        rw [hp] at hrun
        rw [if_neg (by simp)] at hrun
        obtain ⟨y, s2, h6, h7⟩ := bind_inv hrun
        simp only [pure_run, Except.ok.injEq, Prod.mk.injEq] at h7
        obtain ⟨rfl, rfl⟩ := h7
        obtain ⟨evs, rest, h8, h9, h10⟩ := h.sound rfl ⟨it1, e, true⟩ (e :: es) it' y _ ⟨h4, fun _ => h5⟩ rfl (ahead_peeked h3) hd h6
        refine ⟨evs, rest, h8, ?_, h10⟩
        simp only [Reads]
        refine .inr ⟨?_, y, h9, rfl⟩
        rintro x rfl hx
        simp only [List.singleton_append, List.cons.injEq] at h8
        have := h2.2 ⟨x, h8.1, hx⟩
        simp at this

/-- the contents of variants are read exactly -/
theorem exact_variants {F : Type} (n : Nat) (fo : FloatOps F) (ofInt : Int → F) : (vs : List (List Byte × Variant)) → HandledVariants z vs = true → (q = true → WithoutOptionsVariants vs = true) →
    (k : List Byte) → (m : DM (Val F)) → deVariant fo ofInt n k vs = some m → Exact z q n false m (ReadsVariant fo ofInt (textReading fo) k vs)
  | [], _, _, k, m, h => by simp [deVariant] at h
  | (x, v) :: vs, hh, ho, k, m, h => by
    rw [deVariant] at h
    have hrest : HandledVariants z vs = true := by
      cases v <;> simp only [HandledVariants, Bool.and_eq_true] at hh <;> first | exact hh | exact hh.2
    have horest : q = true → WithoutOptionsVariants vs = true := by
      intro hq; have ho := ho hq
      cases v <;> simp only [WithoutOptionsVariants, Bool.and_eq_true] at ho <;> first | exact ho | exact ho.2
    by_cases hx : x = k
    · rw [if_pos hx] at h
      simp only [Option.some.injEq] at h
      subst h
      have key : Exact z q n false (deContents fo ofInt n v) (ReadsContents fo ofInt (textReading fo) v) := by
        cases v with
        | unit =>
          rw [deContents]
          refine ⟨?_, ?_⟩
          · intro s evs it' v _ _ _ h _
            simp [ReadsContents] at h
          · intro _ s L it' v s' _ _ _ _ h
            simp [dfail] at h
        | newtype t =>
          simp only [HandledVariants, Bool.and_eq_true] at hh
          simp only [WithoutOptionsVariants, Bool.and_eq_true] at ho
          rw [deContents]
          refine (exact_ty n fo ofInt false t hh.1 fun hq => (ho hq).1).congr fun evs v => ?_
          rw [ReadsContents]
        | tuple ts =>
          simp only [HandledVariants, Bool.and_eq_true] at hh
          simp only [WithoutOptionsVariants, Bool.and_eq_true] at ho
          obtain ⟨h1, h2⟩ := exact_components n fo ofInt ts hh.1 fun hq => (ho hq).1
          rw [deContents]
          refine ((exact_seq (p := false) (visit_tuple ts h1 h2)).map Val.tuple).congr fun evs v => ?_
          rw [ReadsContents]
          exact ⟨fun ⟨vs, ⟨a, tag, body, h, h'⟩, hv⟩ => ⟨a, tag, body, vs, h, h', hv⟩, fun ⟨a, tag, body, vs, h, h', hv⟩ => ⟨vs, ⟨a, tag, body, h, h'⟩, hv⟩⟩
        | struct deny fs =>
          simp only [HandledVariants, Bool.and_eq_true] at hh
          simp only [WithoutOptionsVariants, Bool.and_eq_true] at ho
          rw [deContents]
          refine (exact_build (exact_fieldMap hh.1.1 (fun k m => exact_fields n fo ofInt fs hh.1.2 (fun hq => (ho hq).1) k m)
            (fun k evs v => field_exists (z := z) (q := q) n fo ofInt fs k evs v) false)).congr fun evs v => ?_
          rw [ReadsContents]
      refine key.congr fun evs v => ?_
      rw [ReadsVariant]; simp [hx]
    · rw [if_neg hx] at h
      refine (exact_variants n fo ofInt vs hrest horest k m h).congr fun evs v => ?_
      rw [ReadsVariant]; simp [hx]

theorem variant_exists {F : Type} (n : Nat) (fo : FloatOps F) (ofInt : Int → F) : (vs : List (List Byte × Variant)) → (k : List Byte) → (evs : List YamEvent) →
    (v : Val F) → ReadsVariant fo ofInt (textReading fo) k vs evs v → ∃ m, deVariant fo ofInt n k vs = some m
  | [], k, evs, v, h => by simp [ReadsVariant] at h
  | (x, t) :: vs, k, evs, v, h => by
    rw [ReadsVariant] at h
    rw [deVariant]
    by_cases hx : x = k
    · exact ⟨_, if_pos hx⟩
    · rw [if_neg hx]
      exact variant_exists n fo ofInt vs k evs v (by simpa [hx] using h)

theorem top_choice {F : Type} (n : Nat) (fo : FloatOps F) (ofInt : Int → F) (p : Bool) (vs : List (List Byte × Variant)) (h : HandledVariants z vs = true) (ho : q = true → WithoutOptionsVariants vs = true) :
    Top z q n p (deTy fo ofInt n (.choice vs)) (Reads fo ofInt (textReading fo) (.choice vs)) := by
  rw [deTy]
  exact top_enum p (exact_variants n fo ofInt vs h ho) (variant_exists n fo ofInt vs)

theorem top_ty {F : Type} (n : Nat) (fo : FloatOps F) (ofInt : Int → F) (t : Ty) (h : HandledTop z t = true) (ho : q = true → WithoutOptionsTop t = true) :
    Top z q n false (deTy fo ofInt n t) (Reads fo ofInt (textReading fo) t) := by
  unfold HandledTop at h
  split at h
  · exact top_choice n fo ofInt false _ h ho
  · have hq : q = false := by cases q <;> simp_all [WithoutOptionsTop, WithoutOptions]
    rw [deTy]
    exact top_option hq (top_choice n fo ofInt true _ h (by simp [hq])) (fun e w hh => reads_shape _ e w hh)
  · refine (exact_ty n fo ofInt false t h fun hq => ?_).top
    have := ho hq
    unfold WithoutOptionsTop at this
    split at this
    · next hno _ => exact absurd rfl (hno _)
    · exact this

/-- every type starts by looking at the next event -/
theorem deTy_skipDoc {F : Type} (n : Nat) (fo : FloatOps F) (ofInt : Int → F) (t : Ty) {s s1 : DSt} (h : skipDoc s = skipDoc s1) :
    deTy fo ofInt n t s = deTy fo ofInt n t s1 := by
  have key : ∀ {α : Type} (k : Option YamEvent → DM α), (skipDoc >>= k) s = (skipDoc >>= k) s1 := by
    intro α k
    show dbind skipDoc k s = dbind skipDoc k s1
    unfold dbind; rw [h]
  have key2 : ∀ {α β : Type} (k : Option YamEvent → DM α) (f : α → DM β), ((skipDoc >>= k) >>= f) s = ((skipDoc >>= k) >>= f) s1 := by
    intro α β k f
    show dbind (skipDoc >>= k) f s = dbind (skipDoc >>= k) f s1
    unfold dbind; rw [key]
  cases t <;> rw [deTy] <;> first | exact key _ | exact key2 _ _

end Verif.De
