import Verif.Import.Model
import Verif.Loader.Props
import Verif.Layer.Model

/-! Properties of the import of audio files (C114) and of DecentSampler presets (C115). -/
namespace Verif.Import
open Verif.Opcode (trim isSpace isDigit decimal octaveText decimal_spec readLeadingInt)
open Verif.Parser (Item Piece IsName ValueText eofByte Parses envWith itemOf blockOf isProblem DocOk ItemOk print layout sections isIdentChar)
open Verif.Loader (seen seenFrom Op Block Header Region sfz settings parseOpcode)

/-! ### C114: audio files -/

/-- A text that survives being written as the value of an opcode: no variable, no line end, no comment, nothing that looks like a header,
an opcode or a directive. -/
def Quotable (v : Text) : Prop :=
  '$' ∉ v ∧ '\r' ∉ v ∧ '\n' ∉ v ∧ (∀ a d b, v = a ++ '/' :: d :: b → d ≠ '/' ∧ d ≠ '*') ∧ ValueText v ∧ eofByte ∉ v

/-- A sample name that a region takes as it is: no spaces around it, not a generator (`*`), no backslash. -/
def PlainName (v : Text) : Prop :=
  v ≠ [] ∧ (∀ c, v.head? = some c → isSpace c = false ∧ c ≠ '*') ∧ (∀ c, v.getLast? = some c → isSpace c = false) ∧ '\\' ∉ v

theorem sampleFile_plain {v : Text} (h : PlainName v) (current : Text) : sampleFile [] current v = v := by
  obtain ⟨h0, h1, h2, h3⟩ := h
  have ht : trim v = v := Verif.Opcode.trim_id (fun c hc => (h1 c hc).1) (fun c hc => h2 c (by rw [List.head?_reverse] at hc; exact hc))
  have hm : v.map (fun c => if c = '\\' then '/' else c) = v := by
    conv_rhs => rw [← List.map_id v]
    refine List.map_congr_left fun c hc => ?_
    have : c ≠ '\\' := fun e => h3 (e ▸ hc)
    simp [this]
  unfold sampleFile
  rw [ht]
  split
  · exact absurd rfl h0
  · exact absurd rfl (h1 '*' rfl).2
  · simpa using hm

theorem no_slash_in_name (path : Text) : '/' ∉ fileName path := by
  unfold fileName
  intro h
  have := List.mem_takeWhile_imp (List.mem_reverse.mp h)
  simp at this

theorem directory_name (path : Text) : directory path ++ fileName path = path := by
  unfold directory fileName
  rw [← List.reverse_append, List.takeWhile_append_dropWhile, List.reverse_reverse]

theorem root_eq (path : Text) : rootDirectory path = directory path := by
  unfold rootDirectory directory
  rw [List.reverse_append, List.dropWhile_append_of_pos]
  decide

/-- What the text of the importer says. -/
def audioDoc (name : Text) : List (List Piece × Item) := [([], .header "region".toList), ([], .opcode "sample".toList name)]

theorem audioDoc_text (name : Text) : print (audioDoc name) [] = "<region>sample=".toList ++ name := by
  simp only [audioDoc, print, layout, List.flatMap_nil, List.nil_append, List.append_nil, Item.text]
  rfl

theorem audioDoc_byte {name : Text} (h : eofByte ∉ name) : eofByte ∉ print (audioDoc name) [] := by
  rw [audioDoc_text, List.mem_append]
  rintro (h' | h')
  · exact absurd h' (by decide)
  · exact h h'

theorem audioDoc_ok {name : Text} (hq : Quotable name) : DocOk (audioDoc name) [] := by
  obtain ⟨q1, q2, q3, q4, q5, q6⟩ := hq
  have h1 : IsName "region".toList := ⟨by decide, by decide⟩
  have h2 : IsName "sample".toList := ⟨by decide, by decide⟩
  refine ⟨by simp, h1, by simp, ⟨h2, by decide, q1, q2, q3, q4, q5, ?_, ?_⟩, by simp [DocOk]⟩
  · intro _ p ps h; simp [Parser.nextLayout] at h
  · intro _ ps n v l h; simp at h

/-- **C114.** Opening an audio file whose name can be quoted makes an instrument of exactly one region, that plays this file: the text is
read without errors or warnings as one `region` header with the one opcode `sample`, and the file it names, looked for in the directory of the instrument,
is the file that was opened. Whatever definitions and files there are. -/
theorem audio_import_partial (path : Text) (files : Text → Option Text) (resolve : Text → Text) (maxDepth : Nat) (guard : Bool) (k : Nat) (external : Parser.Defs)
    (signed : Bool) (hm : maxDepth ≠ 0) (hq : Quotable (fileName path)) (hn : PlainName (fileName path)) (current : Text) :
    (∃ s, Parses (envWith files resolve maxDepth guard (k + 1)) external (path ++ ".sfz".toList) signed (audioText path) s) ∧
    (∀ s, Parses (envWith files resolve maxDepth guard (k + 1)) external (path ++ ".sfz".toList) signed (audioText path) s →
      s.events.filterMap blockOf = [("region".toList, [("sample".toList, fileName path)])] ∧ s.events.any isProblem = false) ∧
    rootDirectory path ++ sampleFile [] current (fileName path) = path := by
  have := Parser.print_parsed files resolve maxDepth guard k external (path ++ ".sfz".toList) signed (audioDoc (fileName path)) [] hm
    (fun _ => audioDoc_byte hq.2.2.2.2.2) (audioDoc_ok hq) (Or.inr ⟨[], _, _, rfl⟩)
  rw [audioDoc_text, show "<region>sample=".toList ++ fileName path = audioText path from rfl] at this
  refine ⟨this.1, fun s hs => ⟨(this.2 s hs).2.1, (this.2 s hs).2.2⟩, ?_⟩
  rw [sampleFile_plain hn, root_eq, directory_name]

/-- **C114.** Exactly the files whose name ends in one of the eight extensions, in any letter case, are taken as audio files, and never
as presets. -/
theorem audio_recognised (path : Text) :
    matchingFormat path = some .audio ↔
      ∃ e ∈ [".wav", ".flac", ".ogg", ".mp3", ".aif", ".aiff", ".aifc", ".wv"].map String.toList,
        (extension path).map Verif.Opcode.toLower = e := by
  rw [show [".wav", ".flac", ".ogg", ".mp3", ".aif", ".aiff", ".aifc", ".wv"].map String.toList = audioExtensions from rfl]
  have hl : ∀ e ∈ audioExtensions, e.map Verif.Opcode.toLower = e := by decide
  unfold matchingFormat
  constructor
  · intro h
    split at h
    · rename_i h1
      obtain ⟨e, he, h1⟩ := List.any_eq_true.mp h1
      refine ⟨e, he, ?_⟩
      simp only [Verif.Opcode.equalsIgnoreCase, beq_iff_eq, hl e he] at h1
      exact h1
    · split at h <;> cases h
  · rintro ⟨e, he, h1⟩
    rw [if_pos]
    refine List.any_eq_true.mpr ⟨e, he, ?_⟩
    simp only [Verif.Opcode.equalsIgnoreCase, beq_iff_eq, hl e he, h1]

def samplePath : Text := "/music/My drums/Kick #2 (a=b).WAV".toList

example : matchingFormat samplePath = some .audio ∧ fileName samplePath = "Kick #2 (a=b).WAV".toList ∧ PlainName (fileName samplePath) := by
  refine ⟨by decide +kernel, by decide +kernel, by decide +kernel, ?_, ?_, by decide +kernel⟩
  · intro c hc
    have : c = 'K' := by
      have h : (fileName samplePath).head? = some 'K' := by decide +kernel
      rw [h] at hc; exact (Option.some.inj hc).symm
    subst this; decide
  · intro c hc
    have : c = 'V' := by
      have h : (fileName samplePath).getLast? = some 'V' := by decide +kernel
      rw [h] at hc; exact (Option.some.inj hc).symm
    subst this; decide

example : Quotable "Kick 2 (ab).WAV".toList ∧ PlainName "Kick 2 (ab).WAV".toList := by
  refine ⟨⟨by decide, by decide, by decide, ?_, ValueText.simple (by decide) (by decide) (by decide) (by decide) (by decide), by decide⟩, by decide, ?_, ?_, by decide⟩
  · intro a d b h
    have : '/' ∈ "Kick 2 (ab).WAV".toList := by rw [h]; simp
    exact absurd this (by decide)
  · intro c hc
    have : c = 'K' := (Option.some.inj hc).symm
    subst this; decide
  · intro c hc
    have h : "Kick 2 (ab).WAV".toList.getLast? = some 'V' := by decide
    rw [h] at hc
    have : c = 'V' := (Option.some.inj hc).symm
    subst this; decide

/-- The result of a parse that ends within `n` turns. -/
theorem parses_of_run {n : Nat} {text path : Text} {signed : Bool} {P : Parser.PState → Prop} [DecidablePred P]
    (h : ((Parser.run (envWith (fun _ => none) id 32 false 2) n (Parser.start (envWith (fun _ => none) id 32 false 2) [] path signed text)).map
      (fun s' => decide (s'.included = [] ∧ P (Parser.flush s')))) = some true) :
    ∃ s, Parses (envWith (fun _ => none) id 32 false 2) [] path signed text s ∧ P s := by
  cases hr : Parser.run (envWith (fun _ => none) id 32 false 2) n (Parser.start (envWith (fun _ => none) id 32 false 2) [] path signed text) with
  | none => rw [hr] at h; simp at h
  | some s' =>
    rw [hr] at h
    obtain ⟨h1, h2⟩ := of_decide_eq_true (Option.some.inj h)
    exact ⟨Parser.flush s', ⟨n, s', hr, h1, rfl⟩, h2⟩

/-- **C114 is violated** for names with characters that mean something in instrument files: opening the recording `take <2>.wav` makes
an instrument whose region plays a file `take`. -/
theorem header_name_violated : matchingFormat "take <2>.wav".toList = some .audio ∧
    ∃ s, Parses (envWith (fun _ => none) id 32 false 2) [] "take <2>.wav.sfz".toList true (audioText "take <2>.wav".toList) s ∧
      s.events.filterMap blockOf = [("region".toList, [("sample".toList, "take".toList)]), ("2".toList, [])] :=
  ⟨by decide +kernel, parses_of_run (n := 6) (by decide +kernel)⟩

/-- ... a part of the name of `a key=40.wav` becomes an opcode ... -/
theorem opcode_name_violated : matchingFormat "a key=40.wav".toList = some .audio ∧
    ∃ s, Parses (envWith (fun _ => none) id 32 false 2) [] "a key=40.wav.sfz".toList true (audioText "a key=40.wav".toList) s ∧
      s.events.filterMap blockOf = [("region".toList, [("sample".toList, "a".toList), ("key".toList, "40.wav".toList)])] :=
  ⟨by decide +kernel, parses_of_run (n := 6) (by decide +kernel)⟩

/-- ... and a file `*sine.wav`, ` x.wav`, `a\b.wav` is not looked for under its name. -/
theorem sample_name_violated : ∀ n ∈ ["*sine.wav".toList, " x.wav".toList, "a\\b.wav".toList],
    matchingFormat n = some .audio ∧ ((sampleFile [] [] n).head? = some '*' ∨ rootDirectory n ++ sampleFile [] [] n ≠ n) := by
  decide +kernel

end Verif.Import
