import Verif.Lemmas.ScanDocs
import Verif.Lemmas.TypedBlock
/-!
# Documents as values of Rust types
-/
namespace Verif.Props
open Verif Verif.Spec Verif.Scanner Verif.De Verif.ParserIter
variable {F : Type}

/-- what is said of a document: it is read as `toks`, which have the events `evs` -/
structure TDoc (n : Nat) (f : Option Nat) (t : List Byte) (b : Bool) (evs : List Event) (toks : List TokenType) : Prop where
  head : t ≠ [] ∧ ∀ r, FirstBlank r → TokenHead (t ++ r)
  goes : DocG f n t toks
  clean : .streamEnd ∉ toks
  sem : ∀ closed T E, DerivesDocs closed [] T E →
    DerivesDocs true [] (toks ++ ((if closed then [.documentEnd] else []) ++ T)) (.documentStart b :: (evs ++ (.documentEnd :: E)))

/-- what is said of a document after `---` -/
structure TEx (f : Option Nat) (t : List Byte) (evs : List Event) (toks : List TokenType) : Prop where
  head : ∃ t', t = bs!"---" ++ t'
  goes : ExG f t (.documentStart :: toks)
  sem : DS (.node? .block) toks evs

theorem DS.clean {nt toks evs} (h : DS nt toks evs) : .streamEnd ∉ toks := derives_end (@h (fun _ => none) [])

/-- a document with directives or without them -/
theorem TEx.doc {ds dt f t evs toks} (hds : Block.Directives dt ds) (hp : ds = [] ∨ (∃ d, ds = [d]) ∨ ∃ d, d ≠ .version ∧ ds = [.version, d]) (h : TEx f t evs toks) :
    ∃ toks', TDoc 0 f (dt ++ t) true evs toks' := by
  obtain ⟨⟨t', rfl⟩, hgoes, hsem⟩ := h
  obtain ⟨dtoks, htoks, hrun⟩ := directives_run hds
  obtain ⟨v, d, rfl, hv, hd⟩ := aims_split htoks hp
  have hth : ∀ r, TokenHead (bs!"---" ++ t' ++ r) := fun r => by simp [TokenHead]
  refine ⟨v ++ (d ++ (.documentStart :: toks)), ⟨by simp, fun r _ => ?_⟩, ?_, ?_, fun closed T E hT => ?_⟩
  · rw [List.append_assoc]; exact directives_head hds (hth r)
  · intro cfg s out w q c' hh he hfi hf
    rw [List.append_assoc] at hh hf ⊢
    obtain ⟨m, s', al', h1, h2, h3, h4⟩ := hrun (hth _) hh (.inl rfl) hf
    obtain ⟨m2, s2, f2, h5, h6⟩ := hgoes h2 h3 he hfi (by simp at hf ⊢; omega)
    refine ⟨_, s2, h1.trans f2, by simpa using h5, by simp at h6 ⊢; omega⟩
  · have := aims_clean htoks
    simp at this ⊢
    exact ⟨this.1, this.2, hsem.clean⟩
  · have := DerivesDocsL.explicit (free := true) (ns := []) (v := v) (d := d) hv hd (.inl rfl) (hsem []) hT
    simpa using this

theorem typedExplicit_reads {fo : FloatOps F} {ofInt : Int → F} {ty f t} {v : Val F} (h : Block.TypedExplicit false fo ofInt ty f t v) :
    ∃ evs toks, TEx f t evs toks ∧ Node evs ∧ Reads fo ofInt (textReading fo) ty (items evs) v := by
  cases h with
  | absent h =>
    obtain ⟨evs, hn, hr⟩ := btyped_reads ty _ _ _ _ _ v h
    obtain rfl := hn.nothing
    refine ⟨_, [], ⟨⟨[], rfl⟩, ?_, fun _ _ => .absent⟩, hn.node, hr⟩
    intro cfg s out w q c' al hh ha he _ hf
    have hbl : FirstBlank (w ++ q) := he.blank.firstBlank
    have e : bs!"---" ++ (w ++ q) = 45 :: 45 :: 45 :: (w ++ q) := by simp
    rw [e] at hh hf ⊢
    obtain ⟨h1, h2, h3, h4⟩ := he
    obtain ⟨s', h5, h6⟩ := after_start (c := c') hh ha h1 hbl h3 (fun m _ hq => (h4.resolve_left hq).2.1 m) (by simp at hf; omega)
    refine Goes.one h5 ?_ (by simp; omega)
    rcases h4 with rfl | ⟨h4, -⟩
    · exact h6.nil _
    · rw [h4] at h6; exact h6
  | @inline k f t v h =>
    obtain ⟨evs, hn, hr⟩ := btyped_reads ty _ _ _ _ _ v h
    obtain ⟨toks, ⟨h1, h2⟩, -, h3, -⟩ := hn.run
    exact ⟨evs, toks, ⟨⟨_, rfl⟩, mark_node (al := false) (c := 4 + (k + 1)) (h2 _) h1 (fun _ => spaces_lay') (.inl rfl) (fun m hm => by rw [spaces_col, hm]) (by omega) (by simp), (h3 (.inl rfl)).present⟩, hn.node, hr⟩
  | under hg h =>
    obtain ⟨evs, hn, hr⟩ := btyped_reads ty _ _ _ _ _ v h
    obtain ⟨toks, ⟨h1, h2⟩, -, h3, -⟩ := hn.run
    exact ⟨evs, toks, ⟨⟨_, rfl⟩, mark_node h2 h1 (fun _ => break_lay hg) (break_first hg) (fun m _ => break_col hg m) (by omega) (fun _ => break_newline hg), (h3 (.inr rfl)).present⟩, hn.node, hr⟩

theorem typedDoc_reads {fo : FloatOps F} {ofInt : Int → F} {ty n f t} {v : Val F} (h : Block.TypedDoc false fo ofInt ty n f t v) :
    ∃ b evs toks, TDoc n f t b evs toks ∧ Node evs ∧ Reads fo ofInt (textReading fo) ty (items evs) v := by
  cases h with
  | bare h =>
    obtain ⟨evs, hn, hr⟩ := btyped_reads ty _ _ _ _ _ v h
    obtain ⟨toks, ⟨h1, h2⟩, -, h3, -⟩ := hn.run
    exact ⟨false, evs, toks, ⟨⟨h1.1, fun r hr => (h1.2 r hr).1⟩, nodeG_doc h2, (h3 (.inr rfl)).clean, fun closed T E hT => .implicit (h3 (.inr rfl) []) hT⟩, hn.node, hr⟩
  | explicit h =>
    obtain ⟨evs, toks, h1, h2, h3⟩ := typedExplicit_reads h
    obtain ⟨toks', h4⟩ := h1.doc .nil (.inl rfl)
    exact ⟨true, evs, toks', h4, h2, h3⟩
  | directed hd _ hp h =>
    obtain ⟨evs, toks, h1, h2, h3⟩ := typedExplicit_reads h
    obtain ⟨toks', h4⟩ := h1.doc hd (.inr (by
      rcases hp.2 rfl with h | ⟨d, rfl⟩
      · exact .inl h
      · refine .inr ⟨d, ?_, rfl⟩
        rintro rfl
        exact absurd hp.1.1 (by decide)))
    exact ⟨true, evs, toks', h4, h2, h3⟩

/-- what stands after the document -/
theorem typed_end {n f t b evs toks r} (h : TDoc n f t b evs toks) (hr : Block.End false f r ∨ ∃ g b, Block.MarkGap true f g ∧ Block.Tail b ∧ r = g ++ (bs!"..." ++ b)) :
    ∃ toks', .streamEnd ∉ toks' ∧ TokenHead (t ++ r) ∧ DerivesDocs true [] (toks' ++ [.streamEnd]) (.documentStart b :: (evs ++ .documentEnd :: [.streamEnd])) ∧
      ∀ {cfg s out}, Here cfg s out [] 0 (t ++ r) (n + 1) true → (t ++ r).length < cfg.fuel → Goes cfg s (t ++ r).length (out ++ toks') [] 0 [] 1 true := by
  rcases hr with hb | ⟨g, b', hg, hb, rfl⟩
  · refine ⟨toks, h.clean, h.head.2 r (tail_blank (end_tail hb)), by simpa using h.sem false _ _ .stop, fun {cfg s out} hh hf => ?_⟩
    have := h.goes (w := r) (q := []) (c' := 1) (by simpa using hh) (tail_end (end_tail hb)) (end_fits hb) (by simpa using hf)
    simpa using this
  · have hbl := break_pend (r := bs!"..." ++ b') (markGap_break hg)
    have hm := dots_mark (tail_blank hb)
    refine ⟨toks ++ [.documentEnd], by simp [h.clean], h.head.2 _ hbl, by simpa using h.sem true _ _ .stop, fun {cfg s out} hh hf => ?_⟩
    refine Goes.then (h.goes hh (markGap_end hg hm) (markGap_fits hg hm (fun _ => rfl)) hf) (fun s' h' => ?_)
    obtain ⟨o, w, rfl, ho, hw, hn⟩ := tail_split hb
    obtain ⟨s2, h1, h2⟩ := after_end (q := []) (w := w) (c := 1) (o := o) (by simpa using h') ho hw (by simp [TokenHead]) (by simpa using hn) (by simp) (by simp at hf; omega)
    have := Goes.one (b := (bs!"..." ++ (o ++ w)).length) h1 (h2.nil true) (by simp)
    simpa using this

/-- the events of a text, as the parser delivers them -/
theorem typed_delivers {a n f t b evs toks r} (ha : Block.IdleLines a) (h : TDoc n f t b evs toks)
    (hr : Block.End false f r ∨ ∃ g b, Block.MarkGap true f g ∧ Block.Tail b ∧ r = g ++ (bs!"..." ++ b)) : ∃ N, ∀ cfg m, N ≤ cfg.fuel → N ≤ m →
    ∃ s, Delivers (Loader.parserOn cfg m (a ++ (Block.spaces n ++ (t ++ r)))) (.streamStart :: .documentStart b :: (evs ++ .documentEnd :: [.streamEnd])) s := by
  obtain ⟨tts, h1, h2, h3, h4⟩ := typed_end h hr
  refine ⟨(a ++ (Block.spaces n ++ (t ++ r))).length + tts.length + 5, fun cfg m hf hn => ?_⟩
  have h5 := h4 (text_here (cfg := cfg) (n := n) ha h2 (by simp at hf ⊢; omega)) (by simp at hf ⊢; omega)
  obtain ⟨k, s1, f1, h6, hk⟩ := h5
  obtain ⟨tks, h7, h8⟩ := text_scan (cfg := cfg) (N := m) (t := a ++ (Block.spaces n ++ (t ++ r))) (toks := tts) ⟨k, s1, f1, h6, by simp at hk ⊢; omega⟩ h1 (by omega) (by omega)
  obtain ⟨s, hs, -⟩ := Props.C42_complete_partial h3 tks h8 .ended (afterNext cfg m (Scanner.new (a ++ (Block.spaces n ++ (t ++ r))))).mark
  refine ⟨s, ?_⟩
  unfold Loader.parserOn
  rw [h7]
  exact hs

end Verif.Props
