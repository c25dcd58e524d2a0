import Verif.Lemmas.Plugin
import Verif.Props.FallReparse
import Verif.Props.FallFormat
import Verif.Props.LanguageReparse

/-! C91, C92: the plugin for the editor. -/

namespace Fall
open Spec

/-! ## C91: the files that the plugin keeps -/

theorem ascii_append {a b : List Nat} : Ascii (a ++ b) ↔ Ascii a ∧ Ascii b := by
  simp [Ascii, or_imp, forall_and]

/-- C91. The record of a change is about the range of UTF-16 units that was replaced. These are the bytes that were
replaced if and only if there are ASCII characters only up to there. The document at the time is already the changed
one. -/
theorem C91_record (before old after : List Nat) (change : ContentChange) (hs : change.start = positionAfter before)
    (hl : change.rangeLength = units old) :
    changeRecord (before ++ (change.text ++ after)) change =
        ⟨⟨units before, units (before ++ old)⟩, utf8Text change.text⟩ ∧
      (((changeRecord (before ++ (change.text ++ after)) change).delete =
        ⟨(utf8Text before).length, (utf8Text (before ++ old)).length⟩) ↔ Ascii (before ++ old)) := by
  have h : changeRecord (before ++ (change.text ++ after)) change =
      ⟨⟨units before, units (before ++ old)⟩, utf8Text change.text⟩ := by
    simp only [changeRecord, hs, hl, offsetAt_after, units_append]
  refine ⟨h, ?_⟩
  rw [h]
  obtain ⟨h1, h2⟩ := utf8Text_length (before ++ old)
  obtain ⟨h3, h4⟩ := utf8Text_length before
  simp only [TextRange.mk.injEq]
  constructor
  · rintro ⟨-, h⟩
    exact h2.1 h.symm
  · intro h
    exact ⟨(h4.2 (ascii_append.1 h).1).symm, (h2.2 h).symm⟩

/-- `b` is replaced by `é` in `ab` after an empty line. -/
example : changeRecord [10, 97, 233, 99] ⟨⟨1, 1⟩, 1, [233]⟩ = ⟨⟨2, 3⟩, [195, 169]⟩ ∧
    positionAfter [10, 97] = ⟨1, 1⟩ ∧ units [98] = 1 := by decide

/-- C91. As long as there are ASCII characters only up to the end of what is replaced, the edit made from the record
exists, is well-formed and makes the bytes of the changed document from those of the document. -/
theorem C91_text (change : ContentChange) (before old after : List Nat) (ha : Ascii (before ++ old))
    (hs : change.start = positionAfter before) (hl : change.rangeLength = units old) :
    ∃ e, fromVsEdits (Text.ofBuf (utf8Text (before ++ (old ++ after))))
        [changeRecord (before ++ (change.text ++ after)) change] = some e ∧
      e.apply (Text.ofBuf (utf8Text (before ++ (old ++ after)))) = some (utf8Text (before ++ (change.text ++ after))) ∧
      OrderedCopies 0 e.ops := by
  obtain ⟨ha1, ha2⟩ := ascii_append.1 ha
  rw [(C91_record before old after change hs hl).1, units_append, units_ascii ha1, units_ascii ha2]
  have hw : ValidView (Text.ofBuf (utf8Text (before ++ (old ++ after)))) := Text.ofBuf_wf _
  have hstr : (Text.ofBuf (utf8Text (before ++ (old ++ after)))).asStr = some (utf8Text (before ++ (old ++ after))) := by
    rw [Text.asStr_ofBuf]
  obtain ⟨h1, h2⟩ := C07_from_vs_edits _ hw _ hstr
    [⟨⟨before.length, before.length + old.length⟩, utf8Text change.text⟩]
  simp only [utf8Text_append, utf8Text_ascii ha1, utf8Text_ascii ha2] at h1 h2 ⊢
  obtain ⟨e, he⟩ := Option.isSome_iff_exists.1 (h1.2 (by simp [Spec.InOrder]))
  refine ⟨e, he, ?_, fromVsEdits_ordered he⟩
  rw [h2 e he]
  simp only [List.map_cons, List.map_nil, splice, bytes, Nat.sub_zero, List.drop_zero, List.take_left', List.length_append]
  rw [show before ++ (old ++ utf8Text after) = (before ++ old) ++ utf8Text after by simp,
    show before.length + old.length = (before ++ old).length by simp, List.drop_left,
    show before.length + (old.length + (utf8Text after).length) - (before ++ old).length = (utf8Text after).length by
      simp; omega, List.take_length]
  simp

/-- The conditions are met. -/
example : Ascii ([10, 97] ++ [98]) ∧ (⟨1, 1⟩ : Position) = positionAfter [10, 97] ∧ 1 = units [98] := by decide

section
variable {U φ : Type} [DecidableEq U] {b : Backend φ} {known : U → Bool} {ok : List Nat → Prop}
  {IsFile : φ → List Nat → Prop}

/-- The files are those of the documents. -/
def Current (known : U → Bool) (ok : List Nat → Prop) (IsFile : φ → List Nat → Prop) (w : World U) (docs : Docs U φ) :
    Prop :=
  ∀ u f, docs u = some f → known u = true ∧ ok (w.text u) ∧ IsFile f (w.text u)

theorem Current.set {w : World U} {docs : Docs U φ} {u : U} {o : Option φ}
    (h : ∀ v f, v ≠ u → docs v = some f → known v = true ∧ ok (w.text v) ∧ IsFile f (w.text v))
    (ho : ∀ f, o = some f → known u = true ∧ ok (w.text u) ∧ IsFile f (w.text u)) :
    Current known ok IsFile w (docs.set u o) := by
  intro v f hv
  by_cases e : v = u
  · subst e
    simp only [Docs.set, if_true] at hv
    exact ho f hv
  · simp only [Docs.set, if_neg e] at hv
    exact h v f e hv

theorem refresh_current (hb : Faithful b ok IsFile) {w : World U} (hw : ∀ u, known u = true → ok (w.text u))
    {docs : Docs U φ} (h : Current known ok IsFile w docs) :
    ∃ docs', refresh b known w docs = some docs' ∧ Current known ok IsFile w docs' ∧
      ∀ u f, docs u = some f → docs' u = some f := by
  unfold refresh
  split
  · exact ⟨docs, rfl, h, fun _ _ h => h⟩
  · rename_i u _
    split
    · rename_i hc
      simp only [Bool.and_eq_true, Option.isNone_iff_eq_none] at hc
      obtain ⟨f, h1, h2⟩ := hb.parse _ (hw u hc.1)
      refine ⟨docs.set u (some f), by rw [h1]; rfl, Current.set (fun v f _ hv => h v f hv) ?_, ?_⟩
      · rintro f' ⟨⟩
        exact ⟨hc.1, hw u hc.1, h2⟩
      · intro v f' hv
        have : v ≠ u := by
          rintro rfl
          rw [hc.2] at hv
          cases hv
        simp only [Docs.set, if_neg this, hv]
    · exact ⟨docs, rfl, h, fun _ _ h => h⟩

theorem update_current (hb : Faithful b ok IsFile) {w : World U} (hw : ∀ u, known u = true → ok (w.text u))
    {docs : Docs U φ} {u : U} {o : Option φ}
    (h : ∀ v f, v ≠ u → docs v = some f → known v = true ∧ ok (w.text v) ∧ IsFile f (w.text v))
    (ho : ∀ f, o = some f → known u = true ∧ ok (w.text u) ∧ IsFile f (w.text u)) :
    ∃ docs', update b known w docs u o = some docs' ∧ Current known ok IsFile w docs' ∧
      ∀ f, o = some f → docs' u = some f := by
  obtain ⟨docs', h1, h2, h3⟩ := refresh_current hb hw (Current.set h ho)
  refine ⟨docs', h1, h2, ?_⟩
  rintro f rfl
  exact h3 u f (by simp [Docs.set])

theorem getFile_current (hb : Faithful b ok IsFile) {w : World U} (hw : ∀ u, known u = true → ok (w.text u))
    {docs : Docs U φ} (h : Current known ok IsFile w docs) (u : U) :
    ∃ o docs', getFile b known w docs u = some (o, docs') ∧ Current known ok IsFile w docs' ∧
      (known u = true → ∃ f, o = some f ∧ IsFile f (w.text u)) := by
  unfold getFile
  split
  · rename_i hk
    exact ⟨none, docs, rfl, h, fun hk' => by simp [hk'] at hk⟩
  · rename_i hk
    have hk : known u = true := by simpa using hk
    split
    · rename_i f hf
      exact ⟨_, docs, rfl, h, fun _ => ⟨f, rfl, (h u f hf).2.2⟩⟩
    · obtain ⟨f, h1, h2⟩ := hb.parse _ (hw u hk)
      obtain ⟨docs', h3, h4, h5⟩ := update_current (o := some f) (u := u) hb hw (fun v f _ hv => h v f hv)
        (by rintro f' ⟨⟩; exact ⟨hk, hw u hk, h2⟩)
      refine ⟨docs' u, docs', by simp [h1, h3], h4, fun _ => ⟨f, h5 f rfl, h2⟩⟩

theorem handle_current (hb : Faithful b ok IsFile) {w w' : World U} {event : PluginEvent U} (he : Happens w event w')
    (hw : ∀ u, known u = true → ok (w'.text u)) {docs : Docs U φ} (h : Current known ok IsFile w docs) :
    ∃ docs', handle b known w' docs event = some docs' ∧ Current known ok IsFile w' docs' := by
  have other : ∀ (u : U) (doc : List Nat) (v : U) (f : φ), v ≠ u → docs v = some f → known v = true ∧
      ok (if v = u then doc else w.text v) ∧ IsFile f (if v = u then doc else w.text v) := by
    intro u doc v f hv hd
    rw [if_neg hv]
    exact h v f hd
  have unknown : ∀ (u : U) (doc : List Nat), ¬ known u = true →
      Current known ok IsFile { w with text := fun v => if v = u then doc else w.text v } docs := by
    intro u doc hk v f hd
    refine other u doc v f ?_ hd
    rintro rfl
    exact hk (h v f hd).1
  cases he with
  | opened u doc =>
    by_cases hk : known u = true
    · obtain ⟨f, h1, h2⟩ := hb.parse _ (hw u hk)
      obtain ⟨docs', h3, h4, -⟩ := update_current (o := some f) (u := u) hb hw (other u doc)
        (by rintro f' ⟨⟩; exact ⟨hk, hw u hk, h2⟩)
      exact ⟨docs', by rw [handle, if_neg (by simp [hk]), h1]; exact h3, h4⟩
    · exact ⟨docs, by simp [handle, hk], unknown u doc hk⟩
  | changed u change doc hd =>
    by_cases hk : known u = true
    · cases hdoc : docs u with
      | none =>
        obtain ⟨docs', h3, h4, -⟩ := update_current (o := none) (u := u) hb hw (other u doc) (by rintro f' ⟨⟩)
        exact ⟨docs', by simp only [handle, hk, hdoc]; exact h3, h4⟩
      | some f =>
        obtain ⟨h5, h6, h7⟩ := h u f hdoc
        have hwu := hw u hk
        simp only [if_true] at hwu
        obtain ⟨f', h1, h2⟩ := hb.edit (w.text u) doc change f h6 hwu hd h7
        obtain ⟨docs', h3, h4, -⟩ := update_current (o := some f') (u := u) hb hw (other u doc)
          (by rintro f' ⟨⟩; exact ⟨hk, by simpa using hwu, by simpa using h2⟩)
        exact ⟨docs', by simp only [handle, hk, hdoc, if_true, h1]; exact h3, h4⟩
    · exact ⟨docs, by simp [handle, hk], unknown u doc hk⟩
  | severalChanges u changes doc hn =>
    by_cases hk : known u = true
    · obtain ⟨docs', h3, h4, -⟩ := update_current (o := none) (u := u) hb hw (other u doc) (by rintro f' ⟨⟩)
      refine ⟨docs', ?_, h4⟩
      simp only [handle, hk]
      split
      · rename_i hc
        cases hc
      · split
        · exact absurd rfl hn
        · exact h3
    · exact ⟨docs, by simp [handle, hk], unknown u doc hk⟩
  | closed u =>
    obtain ⟨docs', h3, h4, -⟩ := update_current (o := none) (u := u) hb hw (fun v f _ hv => h v f hv) (by rintro f' ⟨⟩)
    exact ⟨docs', h3, h4⟩
  | activated active =>
    obtain ⟨docs', h1, h2, -⟩ := refresh_current hb hw (w := { w with active }) (docs := docs) h
    exact ⟨docs', h1, h2⟩
  | asked u =>
    obtain ⟨o, docs', h1, h2, -⟩ := getFile_current hb hw h u
    exact ⟨docs', by simp [handle, h1], h2⟩

/-- C91. With a backend that is right about documents that meet a condition, whatever happens in the editor, as long as
the documents meet the condition: no handler panics, the files that the plugin keeps are those of the documents as they
are, and this is also so for the files it hands out, which it does for each document that it knows. -/
theorem C91_session (hb : Faithful b ok IsFile) (w : World U) (hw : ∀ u, known u = true → ok (w.text u))
    (events : List (PluginEvent U × World U)) (h : HappenAll known ok w events) :
    ∃ docs, runPlugin b known events (fun _ => none) = some docs ∧
      (∀ u f, docs u = some f → known u = true ∧ IsFile f ((lastWorld w events).text u)) ∧
      ∀ u, ∃ o docs', getFile b known (lastWorld w events) docs u = some (o, docs') ∧
        (known u = true → ∃ f, o = some f ∧ IsFile f ((lastWorld w events).text u)) := by
  have key : ∀ (events : List (PluginEvent U × World U)) (w : World U) (docs : Docs U φ),
      (∀ u, known u = true → ok (w.text u)) → Current known ok IsFile w docs → HappenAll known ok w events →
      ∃ docs', runPlugin b known events docs = some docs' ∧ Current known ok IsFile (lastWorld w events) docs' ∧
        ∀ u, known u = true → ok ((lastWorld w events).text u) := by
    intro events
    induction events with
    | nil => intro w docs hw hc _; exact ⟨docs, rfl, hc, hw⟩
    | cons x rest ih =>
      obtain ⟨event, w'⟩ := x
      intro w docs hw hc ⟨h1, h2, h3⟩
      obtain ⟨docs1, h4, h5⟩ := handle_current hb h1 h2 hc
      obtain ⟨docs2, h6, h7⟩ := ih w' docs1 h2 h5 h3
      exact ⟨docs2, by simp only [runPlugin, h4, Option.bind_some, h6], h7⟩
  obtain ⟨docs, h1, h2, h3⟩ := key events w (fun _ => none) hw (by rintro u f ⟨⟩) h
  refine ⟨docs, h1, fun u f hu => ⟨(h2 u f hu).1, (h2 u f hu).2.2⟩, fun u => ?_⟩
  obtain ⟨o, docs', h4, -, h5⟩ := getFile_current hb h3 h2 u
  exact ⟨o, docs', h4, h5⟩

end

theorem parse_text {d : Definition} {n : Nat} {text : List Nat} {x : File Nat × Definition.IncrementalData}
    (h : d.parse n text = .ok x) : x.1.text = text := by
  unfold Definition.parse at h
  obtain ⟨tokens, -, h⟩ := Result.bind_ok.1 h
  obtain ⟨y, -, h⟩ := Result.bind_ok.1 h
  obtain ⟨file, h1, h⟩ := Result.bind_ok.1 h
  cases h
  rw [Result.ofOption_ok] at h1
  obtain ⟨stop, -, rfl⟩ := Option.map_eq_some_iff.1 h1
  rfl

theorem fall_parses (lexer : Lexer Nat) (hl : LexesAscii fallLexRules lexer) {text : List Nat} (ha : Ascii text) :
    ∃ x, (fallDefinition lexer).parse ((text.length + 1) * 17 + 2) text = .ok x := by
  obtain ⟨l2, h2, hag⟩ := hl.extend
  obtain ⟨file, data, h, -⟩ := C34_fall_total l2 h2.progress (h2.lexesBy.blankStart (by decide +kernel)) text
  exact ⟨(file, data), by rw [parse_congr (lex_congr ascii_drop hag ha)]; exact h _ (Nat.le_refl _)⟩

/-- What the documents are to be like: they have ASCII characters only, and no double quotes. -/
def Plainest (doc : List Nat) : Prop := Ascii doc ∧ 34 ∉ doc

/-- C91. The backend for the Fall language is right about documents of ASCII characters without double quotes: what it
has after any change is what parsing the changed document gives. -/
theorem C91_fall (lexer : Lexer Nat) (hl : LexesAscii fallLexRules lexer) :
    Faithful (langBackend (fallDefinition lexer) fun k => (k + 1) * 17 + 2) Plainest
      fun f doc => ∃ n, (fallDefinition lexer).parse n doc = .ok f := by
  constructor
  · rintro doc ⟨ha, -⟩
    obtain ⟨x, hx⟩ := fall_parses lexer hl ha
    exact ⟨x, by simp only [langBackend, utf8Text_ascii ha, hx]; rfl, _, hx⟩
  · rintro doc doc' change ⟨file, data⟩ ⟨ha, hq⟩ ⟨ha', hq'⟩ ⟨before, old, after, rfl, rfl, hs, hlen⟩ ⟨n, hn⟩
    have hbo : Ascii (before ++ old) := by
      rw [← List.append_assoc] at ha
      exact (ascii_append.1 ha).1
    obtain ⟨e, h1, h2, h3⟩ := C91_text change before old after hbo hs hlen
    rw [utf8Text_ascii ha] at h1 h2
    rw [utf8Text_ascii ha'] at h2
    obtain ⟨-, file', data', h⟩ := C76_unquoted lexer hl n _ _ ha ha' hq hq' file data hn e h3 h2
    obtain ⟨h4, h5⟩ := h _ (Nat.le_refl _)
    have ht := parse_text hn
    dsimp only at ht
    refine ⟨(file', data'), ?_, _, h4⟩
    simp only [langBackend, ht, h1, h2, Option.bind_eq_bind, Option.bind_some, h5]
    rfl

/-- A document of the Fall language is opened as `rule a{b}rule c{d}`, then a letter is added to the name of the first
rule, then it is closed. -/
def renameEvents : List (PluginEvent Unit × World Unit) :=
  [(.opened (), ⟨fun _ => twoRules, none⟩), (.changed () [⟨⟨0, 6⟩, 0, [120]⟩], ⟨fun _ => renamedRules, none⟩),
   (.activated, ⟨fun _ => renamedRules, some ()⟩), (.closed (), ⟨fun _ => renamedRules, some ()⟩)]

/-- The conditions of `C91_session` are met. -/
example : Faithful (langBackend (fallDefinition fallLexer) fun k => (k + 1) * 17 + 2) Plainest
      (fun f doc => ∃ n, (fallDefinition fallLexer).parse n doc = .ok f) ∧
    HappenAll (fun _ => true) Plainest ⟨fun _ => [], none⟩ renameEvents := by
  have h2 : Plainest twoRules := ⟨by decide, by decide⟩
  have h3 : Plainest renamedRules := ⟨by decide, by decide⟩
  refine ⟨C91_fall fallLexer fallLexer_lexes, ?_, fun _ _ => h2, ?_, fun _ _ => h3, ?_, fun _ _ => h3, .closed _,
    fun _ _ => h3, trivial⟩
  · exact .opened (w := ⟨fun _ => [], none⟩) () twoRules
  · exact .changed (w := ⟨fun _ => twoRules, none⟩) () ⟨⟨0, 6⟩, 0, [120]⟩ renamedRules
      ⟨twoRules.take 6, [], twoRules.drop 6, by decide, by decide, by decide, by decide⟩
  · exact .activated (w := ⟨fun _ => renamedRules, none⟩) (some ())

/-- `'é' ab`. -/
def accented : List Nat := [39, 233, 39, 32, 97, 98]

/-- `'é' a`. -/
def accented' : List Nat := [39, 233, 39, 32, 97]

/-- C91. Offsets of the editor are taken for offsets of bytes: `b` is deleted in the document `'é' ab`, and `a` is
deleted in the file of it. -/
theorem C91_utf16_counterexample :
    Describes ⟨⟨0, 5⟩, 1, []⟩ accented accented' ∧
      ∃ docs f, runPlugin (langBackend (fallDefinition fallLexer) fun _ => 200) (fun _ => true)
          [(PluginEvent.opened (), ⟨fun _ => accented, none⟩),
           (.changed () [⟨⟨0, 5⟩, 1, []⟩], ⟨fun _ => accented', none⟩)] (fun _ => none) = some docs ∧
        docs () = some f ∧ f.1.text = utf8Text [39, 233, 39, 32, 98] ∧ f.1.text ≠ utf8Text accented' := by
  refine ⟨⟨[39, 233, 39, 32, 97], [98], [], by decide, by decide, by decide, by decide⟩, ?_⟩
  have h : ((runPlugin (langBackend (fallDefinition fallLexer) fun _ => 200) (fun _ => true)
          [(PluginEvent.opened (), ⟨fun _ => accented, none⟩),
           (.changed () [⟨⟨0, 5⟩, 1, []⟩], ⟨fun _ => accented', none⟩)] (fun _ => none)).bind fun docs =>
        (docs ()).map fun f => f.1.text) = some (utf8Text [39, 233, 39, 32, 98]) := by decide +kernel
  obtain ⟨docs, h1, h2⟩ := Option.bind_eq_some_iff.1 h
  obtain ⟨f, h3, h4⟩ := Option.map_eq_some_iff.1 h2
  refine ⟨docs, f, h1, h3, h4, ?_⟩
  rw [h4]
  decide

/-- `fn f(){a>b}}]>;`. -/
def openType : List Nat := greaterFn ++ [125, 93, 62, 59]

/-- What parsing `openType` gives. -/
def openData : Definition.IncrementalData :=
  ⟨[⟨107, 2⟩, ⟨100, 1⟩, ⟨191, 1⟩, ⟨136, 1⟩, ⟨137, 1⟩, ⟨138, 1⟩, ⟨191, 1⟩, ⟨141, 1⟩, ⟨191, 1⟩, ⟨139, 1⟩, ⟨139, 1⟩,
    ⟨143, 1⟩, ⟨141, 1⟩, ⟨157, 1⟩],
   [.start 192 none, .cached 193 29, .start 197 none, .token 107 1, .token 191 1, .token 136 1, .token 137 1,
    .start 262 none, .token 138 1, .start 266 none, .start 252 (some 7), .start 221 none, .start 223 none,
    .token 191 1, .fin, .fin, .fin, .start 293 none, .token 141 1, .start 252 none, .start 221 none,
    .start 223 none, .token 191 1, .fin, .fin, .fin, .fin, .fin, .token 139 1, .fin, .fin, .start 0 none,
    .token 139 1, .token 143 1, .token 141 1, .token 157 1, .fin, .fin]⟩

/-- Types `type T=X<[A;{` at the start of the document. -/
def typeChange : ContentChange := ⟨⟨0, 0⟩, 0, [116, 121, 112, 101, 32, 84, 61, 88, 60, 91, 65, 59, 123]⟩

/-- C91. For Rust this is not so: when `type T=X<[A;{` is pasted before `fn f(){a>b}}]>;` the handler panics, though the
new document can be parsed. -/
theorem C91_rust_counterexample :
    Describes typeChange openType greaterType ∧ Ascii openType ∧ Ascii greaterType ∧
      (∃ x, (rustDefinition rustLexer).parse 300 openType = .ok x ∧
        ∃ e, fromVsEdits (Text.ofBuf openType) [changeRecord greaterType typeChange] = some e ∧
          (rustDefinition rustLexer).reparse 300 openType x.2 e = .panic) ∧
      (∃ x, (rustDefinition rustLexer).parse 300 greaterType = .ok x) ∧
      runPlugin (langBackend (rustDefinition rustLexer) fun _ => 300) (fun _ => true)
        [(PluginEvent.opened (), ⟨fun _ => openType, none⟩), (.changed () [typeChange], ⟨fun _ => greaterType, none⟩)]
        (fun _ => none) = none := by
  have ha : Ascii openType := by decide
  have ha' : Ascii greaterType := by decide
  have h1 : ∃ file, (rustDefinition rustLexer).parse 300 openType = .ok (file, openData) := by
    rw [Definition.parse_eq (tokens := openData.tokens) (by decide +kernel), rustEvents_eq]
    exact ok_eval (by decide +kernel)
  have h2 : ∃ file data', (rustDefinition rustLexer).parse 300 greaterType = .ok (file, data') := by
    refine parse_some ?_
    rw [Definition.parse_eq (tokens := greaterTokens) (by decide +kernel), rustEvents_eq]
    decide +kernel
  have he : fromVsEdits (Text.ofBuf openType) [changeRecord greaterType typeChange] =
      some ⟨[.insert typeChange.text, .copy ⟨0, 15⟩]⟩ := by decide +kernel
  have hap : (⟨[.insert typeChange.text, .copy ⟨0, 15⟩]⟩ : TextEdit Nat).apply (Text.ofBuf openType) =
      some greaterType := by decide +kernel
  have h3 : (rustDefinition rustLexer).reparse 300 openType openData ⟨[.insert typeChange.text, .copy ⟨0, 15⟩]⟩ =
      .panic := by
    have hc : rustEvents (some ([((13, 193), 2, 29, 9)], openData.events)) greaterType greaterTokens = .panic := by
      decide +kernel
    have hr : ∃ region, relex (rustDefinition rustLexer).lexer openData.tokens ⟨[.insert typeChange.text, .copy ⟨0, 15⟩]⟩ greaterType =
        some (greaterTokens, region) := by
      have : (relex (rustDefinition rustLexer).lexer openData.tokens ⟨[.insert typeChange.text, .copy ⟨0, 15⟩]⟩
        greaterType).map (fun x => x.1) = some greaterTokens := by decide +kernel
      obtain ⟨⟨t, r⟩, h, rfl⟩ := Option.map_eq_some_iff.1 this
      exact ⟨r, h⟩
    obtain ⟨region, hr⟩ := hr
    rw [Definition.reparse_eq (d := rustDefinition rustLexer) (data := openData) (newText := greaterType)
      (tokens := greaterTokens) (region := region) (cache := [((13, 193), 2, 29, 9)]) hap hr (by decide +kernel), rustEvents_eq, hc]
    rfl
  obtain ⟨file, h1⟩ := h1
  obtain ⟨file', data', h2⟩ := h2
  refine ⟨⟨[], [], openType, by decide, by decide, by decide, by decide⟩, ha, ha', ⟨_, h1, _, he, h3⟩, ⟨_, h2⟩, ?_⟩
  have ht : file.text = openType := parse_text h1
  simp only [runPlugin, handle, langBackend, utf8Text_ascii ha, h1, Result.toOption, update, refresh, Docs.set,
    Option.bind_some, he, ht, hap, h3, Option.bind_eq_bind, Bool.not_true, Bool.false_eq_true, if_true, if_false,
    Option.bind_none]

/-! ## C92: the edits that the editor gets -/

theorem offset_round {doc : List Nat} (ha : Ascii doc) {o : Nat} (h : o ≤ doc.length) :
    offsetAt doc (positionAt doc o) = o := by
  have e : doc = doc.take o ++ doc.drop o := (List.take_append_drop o doc).symm
  have hu : units (doc.take o) = o := by
    rw [units_ascii (fun b hb => ha b (List.mem_of_mem_take hb)), List.length_take]
    omega
  have h1 := positionAt_units (doc.take o) (doc.drop o)
  have h2 := offsetAt_after (doc.take o) (doc.drop o)
  rw [← e, hu] at h1 h2
  rw [h1, h2]

/-- C92. In a document of ASCII characters the editor finds the place that an offset is meant to be. -/
theorem C92_range (doc : List Nat) (ha : Ascii doc) (r : TextRange) (h1 : r.start ≤ doc.length) (h2 : r.stop ≤ doc.length) :
    toVsRange doc r = (positionAfter (doc.take r.start), positionAfter (doc.take r.stop)) ∧
      offsetAt doc (toVsRange doc r).1 = r.start ∧ offsetAt doc (toVsRange doc r).2 = r.stop := by
  have key : ∀ o, o ≤ doc.length → positionAt doc o = positionAfter (doc.take o) := by
    intro o ho
    have h := positionAt_units (doc.take o) (doc.drop o)
    rwa [List.take_append_drop, units_ascii (fun b hb => ha b (List.mem_of_mem_take hb)), List.length_take,
      Nat.min_eq_left ho] at h
  exact ⟨by rw [toVsRange, key _ h1, key _ h2], offset_round ha h1, offset_round ha h2⟩

/-- `b` in the second line. -/
example : toVsRange [97, 10, 98, 99] ⟨2, 3⟩ = (⟨1, 0⟩, ⟨1, 1⟩) ∧ Ascii [97, 10, 98, 99] := by decide

/-- C92. It does not in others: `b` is at byte 3 of `éb`. -/
theorem C92_range_counterexample :
    ∃ (doc : List Nat) (r : TextRange), r.stop ≤ (utf8Text doc).length ∧
      ((utf8Text doc).drop r.start).take (r.stop - r.start) = [98] ∧
      toVsRange doc r ≠ (positionAfter [233], positionAfter [233, 98]) ∧ doc = [233, 98] :=
  ⟨[233, 98], ⟨2, 3⟩, by decide, by decide, by decide, rfl⟩

theorem splice_decoded {α : Type} {code : α → Nat} {text : List α} (ha : Ascii (text.map code)) :
    ∀ (records : List (VsEdit α)) (records' : List (VsEdit Nat)) (pos : Nat),
      Spec.InOrder text.length pos (records.map fun v => (v.delete, v.insert)) → Decoded code records records' →
      utf8Text (splice (text.map code) pos (records'.map fun r =>
          (⟨offsetAt (text.map code) (toVsRange (text.map code) r.delete).1,
            offsetAt (text.map code) (toVsRange (text.map code) r.delete).2⟩, r.insert))) =
        (splice text pos (records.map fun v => (v.delete, v.insert))).map code := by
  have hb : ∀ a b, utf8Text (bytes (text.map code) a b) = (bytes text a b).map code := by
    intro a b
    have : bytes (text.map code) a b = (bytes text a b).map code := by simp [bytes, List.map_drop, List.map_take]
    rw [← this]
    refine utf8Text_ascii fun c hc => ha c ?_
    rw [bytes] at hc
    exact List.mem_of_mem_drop (List.mem_of_mem_take hc)
  intro records
  induction records with
  | nil =>
    rintro (_ | ⟨r', records'⟩) pos h hd
    · simp only [List.map_nil, splice, hb, List.length_map]
    · exact hd.elim
  | cons r records ih =>
    rintro (_ | ⟨r', records'⟩) pos h hd
    · exact hd.elim
    · obtain ⟨h1, h2, h3⟩ := hd
      obtain ⟨h4, h5, h6⟩ := h
      have h7 : r.delete.stop ≤ text.length := by
        revert h6
        generalize r.delete.stop = p
        clear ih h3
        induction records generalizing p with
        | nil => exact id
        | cons q records ihr =>
          rintro ⟨h, h', h''⟩
          exact Nat.le_trans (Nat.le_trans h h') (ihr _ h'')
      have h8 := offset_round ha (o := r.delete.start) (by rw [List.length_map]; exact Nat.le_trans h5 h7)
      have h9 := offset_round ha (o := r.delete.stop) (by rw [List.length_map]; exact h7)
      simp only [List.map_cons, splice, toVsRange, h1, h8, h9, utf8Text_append, hb, h2, List.map_append]
      have := ih records' _ h6 h3
      simp only [toVsRange] at this
      rw [this]

/-- C92. What a feature asks to do with the nodes of a file of ASCII text is what the editor does with the document: the
records exist, are in order, do not overlap and are inside of the document, and the editor then has the rendering of the
tree with the requests, see C22. The text that comes in may have any characters. -/
theorem C92_editor {α : Type} (code : α → Nat) (f : File α) (hf : ConsistentFile f) (ha : Ascii (f.text.map code))
    (e : FileEdit α) :
    ∃ edit records out, e.intoTextEdit f = some edit ∧ toVsEdits edit = some records ∧
      Spec.InOrder f.text.length 0 (records.map fun v => (v.delete, v.insert)) ∧ Rendered f e 0 out ∧
      edit.apply (Text.ofBuf f.text) = some out ∧
      ∀ records', Decoded code records records' →
        utf8Text (editorReplaces (f.text.map code) records') = out.map code := by
  obtain ⟨edit, out, h1, h2, h3⟩ := C22_edit_renders f hf e
  obtain ⟨records, h4, h5, h6⟩ := C06_to_vs_edits (Text.ofBuf f.text) (Text.ofBuf_wf _) f.text (Text.asStr_ofBuf _) edit
    (intoTextEdit_complete h1)
  refine ⟨edit, records, out, h1, h4, h5, h2, h3, fun records' hd => ?_⟩
  rw [h3] at h6
  cases h6
  exact splice_decoded ha records records' 0 h5 hd

/-- The conditions are met, and the end of a file can be deleted. -/
example : ConsistentFile exampleFile ∧ Ascii (exampleFile.text.map id) ∧
    ((FileEdit.new.delete 0).intoTextEdit exampleFile).bind toVsEdits = some [⟨⟨0, 7⟩, []⟩] :=
  ⟨exampleFile_consistent, by decide, by decide⟩

section
variable {lexer : Lexer Nat} {n : Nat} {text : List UInt8} {file : File Nat} {data : Definition.IncrementalData}
  (hlex : LexesBy fallLexRules lexer) (h : (fallDefinition lexer).parse n (text.map UInt8.toNat) = .ok (file, data))
include hlex h

/-- C92. Formatting a document of ASCII characters with a grammar: the document is then as it is to be formatted. -/
theorem C92_format (ha : Ascii (text.map UInt8.toNat)) :
    ∃ edit records out, reformat ⟨text, file.nodes⟩ = some edit ∧ toVsEdits edit = some records ∧
      Formatted ⟨text, file.nodes⟩ 0 out ∧
      ∀ records', Decoded UInt8.toNat records records' →
        utf8Text (editorReplaces (text.map UInt8.toNat) records') = out.map UInt8.toNat := by
  obtain ⟨hf, -⟩ := C60_parsed hlex h
  obtain ⟨edit, out, h1, h2, h3, -⟩ := C70_reformat ⟨text, file.nodes⟩ hf
  have h1' := h1
  simp only [reformat, reformatFile, Option.bind_eq_bind, Option.bind_eq_some_iff] at h1'
  obtain ⟨e, -, h4⟩ := h1'
  obtain ⟨edit', records, out', h5, h6, -, -, h7, h8⟩ := C92_editor UInt8.toNat ⟨text, file.nodes⟩ hf ha e
  rw [h4, Option.some.injEq] at h5
  subst h5
  rw [h2, Option.some.injEq] at h7
  subst h7
  exact ⟨edit, records, out, h1, h6, h3, h8⟩

end

/-- The records for `rule x {< a  >|b}`. -/
example : ((parsedNodes 1000 [114, 117, 108, 101, 32, 120, 32, 123, 60, 32, 97, 32, 32, 62, 124, 98, 125]).bind fun nodes =>
      (reformat ⟨[114, 117, 108, 101, 32, 120, 32, 123, 60, 32, 97, 32, 32, 62, 124, 98, 125], nodes⟩).bind toVsEdits) =
    some [⟨⟨9, 10⟩, []⟩, ⟨⟨11, 13⟩, []⟩, ⟨⟨14, 14⟩, [32]⟩, ⟨⟨15, 15⟩, [32]⟩] := by decide +kernel

end Fall
