import Verif.Props.RoundTrip
import Verif.Lemmas.ScanTagInv
/-!
# Property C33: a tag that is printed, scanned and resolved again is the same tag
-/
namespace Verif.Props
open Verif Verif.Spec Verif.Emitter Verif.Scanner Verif.Loader
variable {F : Type}

/-- C33 as stated: every tag that is written, in front of white space, is read as itself, whatever was declared and wherever it stands. -/
def C33_full : Prop :=
  ∀ (t : Tag) (tags : List (List Byte × List Byte)) (b : Byte) (post : List Byte), b = 32 ∨ b = 10 →
    ∃ N, ∀ cfg s, N ≤ cfg.fuel → s.src.rest = displayTag t ++ b :: post → ReadsBackAs cfg tags s t

/-- **C33 (partial)** A local tag `!suffix`, as the emitter prints it in front of white space, is scanned and resolved as that tag in every
state of the scanner, as long as the handle `!` was not redeclared. Partial: the suffix must not be empty and must consist of bytes that stand for
themselves in a tag; other handles are false, see below. -/
theorem C33_local_partial (suffix : List Byte) (hne : suffix ≠ []) (hs : ∀ b ∈ suffix, TagByte b) (tags : List (List Byte × List Byte))
    (ht : Parser.mapGet tags bs!"!" = none) (b : Byte) (post : List Byte) (hb : b = 32 ∨ b = 10) :
    ∃ N, ∀ cfg s, N ≤ cfg.fuel → s.src.rest = displayTag ⟨bs!"!", suffix⟩ ++ b :: post → ReadsBackAs cfg tags s ⟨bs!"!", suffix⟩ := by
  refine ⟨suffix.length + 1, fun cfg s hf hr => ⟨by rw [hr]; rfl, _, _, _, _, scanTag_local hne hs hb (by simpa [displayTag] using hr) (by omega), ?_⟩⟩
  simp [Parser.resolveTag, ht]

example : (bs!"point/2-d" : List Byte) ≠ [] ∧ (∀ b ∈ bs!"point/2-d", TagByte b) ∧ Parser.mapGet [(bs!"!e!", bs!"app/")] bs!"!" = none := by decide

/-- **C33 (partial)**, through the whole library: a tree with a local tag at its root loads from what the emitter wrote for it with the same tag (tags
further inside are part of `C44_roundtrip_partial`). -/
theorem C33_loads_partial (fo : FloatOps F) (ec : Config) (suffix : List Byte) (x : Yaml F) (hne : suffix ≠ []) (hs : ∀ b ∈ suffix, TagByte b)
    (hx : ∀ t y, x ≠ .tagged t y) (hp : Printable fo ec true x) (hi : ec.bestIndent = 2) :
    ∃ N, ∀ cfg n, N ≤ cfg.fuel → N ≤ n →
      loadFrom fo cfg n (dump fo ec (.tagged ⟨bs!"!", suffix⟩ x)) = .ok [.tagged ⟨bs!"!", suffix⟩ x] := by
  obtain ⟨N, h⟩ := C44_roundtrip_partial fo ec _ hi (.tagged hne hs hx hp)
  exact ⟨N, fun cfg n h1 h2 => (h cfg n h1 h2).1⟩

example : Printable noFloats ⟨2, true, true⟩ true (.seq [.scalar .null] : Yaml Unit) := .seq (by simp; exact .scalar trivial)

/-- a verbatim tag is printed like a local one -/
theorem dump_verbatim (fo : FloatOps F) (ec : Config) (suffix : List Byte) (x : Yaml F) :
    dump fo ec (.tagged ⟨[], suffix⟩ x) = dump fo ec (.tagged ⟨bs!"!", suffix⟩ x) := by
  have : displayTag ⟨[], suffix⟩ = displayTag ⟨bs!"!", suffix⟩ := rfl
  rw [dump, dump, emitNode, emitNode, this]

/-- **C33, exactly what holds** where no handle was declared: the text of a tag, in front of white space, is read as that tag if and only if
it is a local tag `!suffix` whose suffix is not empty and needs no escapes. So the tags `!`, `!<uri>`, `!!name`, every tag with a declared
prefix and every local tag with an escaped byte in its suffix are *not* read back as themselves. -/
theorem C33_tags_exact (t : Tag) (b : Byte) (post : List Byte) (hb : b = 32 ∨ b = 10) (cfg : Cfg) (s : SSt)
    (hf : t.suffix.length < cfg.fuel) (hr : s.src.rest = displayTag t ++ b :: post) :
    ReadsBackAs cfg [] s t ↔ t.handle = bs!"!" ∧ t.suffix ≠ [] ∧ ∀ b ∈ t.suffix, TagByte b := by
  refine ⟨readsBack_local hb hr, ?_⟩
  rintro ⟨h1, h2, h3⟩
  obtain ⟨hd, sf⟩ := t
  dsimp only at h1 h2 h3 hf
  subst h1
  refine ⟨by rw [hr]; rfl, _, _, _, _, scanTag_local h2 h3 hb (by simpa [displayTag] using hr) hf, ?_⟩
  simp [Parser.resolveTag, Parser.mapGet]

/-- such a state, and tags on either side -/
example : (Scanner.new bs!"!a/b-c 5").src.rest = displayTag ⟨bs!"!", bs!"a/b-c"⟩ ++ 32 :: bs!"5"
    ∧ (Scanner.new bs!"!! 5").src.rest = displayTag ⟨[], bs!"!"⟩ ++ 32 :: bs!"5" := ⟨rfl, rfl⟩

/-- **C33 as stated is false.** The tag of `! 5` is printed `!!` and not read back; the tag of `!a%21b 5` is printed `!a!b` and not read back. A
verbatim tag `!<suffix>` is printed `!suffix`, and the document loads with the local tag instead. A tag with a declared prefix is printed with
the prefix in place of the handle: `%TAG !e! app/` and `!e!point 5` give a tag that is printed `app/!point`, and the document loads as the
string `app/!point 5`. -/
theorem C33_tags_false : ¬ C33_full ∧
    (∃ t, ReadsBackAs ⟨9, false⟩ [] (Scanner.new bs!"! 5") t ∧
      ∀ cfg s post, t.suffix.length < cfg.fuel → s.src.rest = displayTag t ++ 32 :: post → ¬ ReadsBackAs cfg [] s t) ∧
    (∃ t, ReadsBackAs ⟨9, false⟩ [] (Scanner.new bs!"!a%21b 5") t ∧
      ∀ cfg s post, t.suffix.length < cfg.fuel → s.src.rest = displayTag t ++ 32 :: post → ¬ ReadsBackAs cfg [] s t) ∧
    (∀ (fo : FloatOps F) (ec : Config) suffix x, suffix ≠ [] → (∀ b ∈ suffix, TagByte b) → (∀ t y, x ≠ .tagged t y) → Printable fo ec true x →
      ec.bestIndent = 2 → ∃ N, ∀ cfg n, N ≤ cfg.fuel → N ≤ n →
        loadFrom fo cfg n (dump fo ec (.tagged ⟨[], suffix⟩ x)) = .ok [.tagged ⟨bs!"!", suffix⟩ x]) ∧
    (ReadsBackAs ⟨9, false⟩ [(bs!"!e!", bs!"app/")] (Scanner.new bs!"!e!point 5") ⟨bs!"app/", bs!"point"⟩ ∧
      ∀ (ec : Config), ec.bestIndent = 2 → ∃ N, ∀ cfg n, N ≤ cfg.fuel → N ≤ n →
        loadFrom noFloats cfg n (dump noFloats ec (.tagged ⟨bs!"app/", bs!"point"⟩ (.scalar (.int 5)))) = .ok [.scalar (.str bs!"app/!point 5")]) := by
  refine ⟨?_, ⟨⟨[], bs!"!"⟩, ⟨rfl, _, _, _, _, rfl, rfl⟩, ?_⟩, ⟨⟨bs!"!", bs!"a!b"⟩, ⟨rfl, _, _, _, _, rfl, rfl⟩, ?_⟩, ?_,
    ⟨rfl, _, _, _, _, rfl, rfl⟩, ?_⟩
  · intro h
    obtain ⟨N, h⟩ := h ⟨[], bs!"!"⟩ [] 32 [] (.inl rfl)
    have := (C33_tags_exact _ 32 [] (.inl rfl) ⟨N + 2, false⟩ (Scanner.new bs!"!! ") (by simp) rfl).1 (h ⟨N + 2, false⟩ _ (by simp) rfl)
    exact absurd this.1 (by decide)
  · intro cfg s post hf hr h
    exact absurd ((C33_tags_exact _ 32 post (.inl rfl) cfg s hf hr).1 h).1 (by decide)
  · intro cfg s post hf hr h
    exact absurd (((C33_tags_exact _ 32 post (.inl rfl) cfg s hf hr).1 h).2.2 33 (by decide)) (by decide)
  · intro fo ec suffix x hne hs hx hp hi
    rw [dump_verbatim]
    exact C33_loads_partial fo ec suffix x hne hs hx hp hi
  · intro ec hi
    have : dump noFloats ec (.tagged ⟨bs!"app/", bs!"point"⟩ (.scalar (.int 5))) = dump noFloats ec (.scalar (.str bs!"app/!point 5")) := by
      unfold dump
      rw [emitNode, emitNode, emitNode]
      have hb : shouldEmitStringAsBlock ec bs!"app/!point 5" = false := by simp [shouldEmitStringAsBlock]
      unfold emitScalar
      dsimp only
      rw [hb]
      rfl
    rw [this]
    obtain ⟨N, h⟩ := C44_roundtrip_partial noFloats ec (.scalar (.str bs!"app/!point 5")) hi (.scalar (by
      rw [ScalarBack, if_neg (by simp [shouldEmitStringAsBlock])]; exact ⟨by decide, by decide⟩))
    exact ⟨N, fun cfg n h1 h2 => (h cfg n h1 h2).1⟩

end Verif.Props
