import Verif.Osc.Lemmas
import Mathlib.Data.Fintype.Card
import Mathlib.Data.Fintype.EquivFin
import Mathlib.Data.BitVec

/-!
OSC messages: C05 (round trip), C06 (size and capacity), C07 (no out of bounds read).

The specification of the format is `encode` in `Lemmas.lean` (padded strings, big-endian numbers, length-prefixed
blobs): it does not mention the reader or the writer.
-/
namespace Verif.Osc

/-! ### C06 -/

/-- **C06.** For every message and every capacity, the encoder returns the length of the OSC encoding, fills the buffer
with the longest prefix of it that fits, and leaves every byte after the capacity (and after the message) untouched. -/
theorem osc_encode_capacity (conv : Conv) (mem : List Byte) (capacity : Nat) (path : List Byte) (sig : List Char)
    (args : List Arg) (ht : List.Forall₂ Typed sig args) (hmem : capacity ≤ mem.length)
    (hlen : (encode path sig (args.map (narrowed conv))).length < 2 ^ 32) :
    prepareMessage conv mem capacity path sig args =
      ((encode path sig (args.map (narrowed conv))).take capacity
          ++ mem.drop (min capacity (encode path sig (args.map (narrowed conv))).length),
       (encode path sig (args.map (narrowed conv))).length) := by
  unfold prepareMessage
  rw [writeMessage_eq conv path sig args ht (by simpa [Writer.Ok] using hmem) hlen]
  simp [Writer.out, poke]

/-- The returned size does not depend on the capacity, and the message is complete exactly when it fits. -/
theorem osc_encode_size_stable (conv : Conv) (mem mem' : List Byte) (cap cap' : Nat) (path : List Byte)
    (sig : List Char) (args : List Arg) (ht : List.Forall₂ Typed sig args) (hmem : cap ≤ mem.length)
    (hmem' : cap' ≤ mem'.length) (hlen : (encode path sig (args.map (narrowed conv))).length < 2 ^ 32) :
    (prepareMessage conv mem cap path sig args).2 = (prepareMessage conv mem' cap' path sig args).2 := by
  rw [osc_encode_capacity conv mem cap path sig args ht hmem hlen,
    osc_encode_capacity conv mem' cap' path sig args ht hmem' hlen]

/-- The tags of the format. -/
def knownTags : List Char := ['i', 'c', 'r', 'm', 'h', 'f', 'd', 's', 'S', 'b', 'T', 'F', 'N', 'I']

/-- A signature with an unknown tag is refused (size 0), whatever comes after it. -/
theorem osc_unknown_tag (conv : Conv) (mem : List Byte) (capacity : Nat) (path : List Byte) (sig : List Char)
    (c : Char) (sig' : List Char) (args : List Arg) (a : Arg) (args' : List Arg)
    (ht : List.Forall₂ Typed sig args) (hc : c ∉ knownTags) :
    (prepareMessage conv mem capacity path (sig ++ c :: sig') (args ++ a :: args')).2 = 0 := by
  have key : ∀ (w : Writer) (k : Nat), (writeArgs conv w k (sig ++ c :: sig') (args ++ a :: args')).2 = 0 := by
    induction ht with
    | nil =>
      intro w k
      simp only [knownTags, List.mem_cons, List.not_mem_nil, or_false, not_or] at hc
      simp [writeArgs, writeArg, hc]
    | @cons c' a' s as h hs ih =>
      intro w k
      simp only [List.cons_append, writeArgs]
      cases hw : writeArg conv w k c' a' with
      | none => rfl
      | some p => exact ih p.1 p.2
  unfold prepareMessage writeMessage
  exact key _ _

/-- Witness: a message with every padding case. -/
example (conv : Conv) :
    List.Forall₂ Typed ['i', 's', 'b', 'T'] [.i 7, .s [1, 2, 3], .b [9], .none] ∧
    (encode [47, 97] ['i', 's', 'b', 'T'] ([.i 7, .s [1, 2, 3], .b [9], .none].map (narrowed conv)))
      = [47, 97, 0, 0,  44, 105, 115, 98, 84, 0, 0, 0,  0, 0, 0, 7,  1, 2, 3, 0,  0, 0, 0, 1, 9, 0, 0, 0] :=
  ⟨.cons (.i _ _ (by simp)) (.cons (.s _ _ (by simp) (by decide)) (.cons (.b _) (.cons (.none _ (by simp)) .nil))),
   by simp only [narrowed, List.map]; decide⟩

/-! ### C05 -/

/-- Bytes needed in the buffer receiving the decoded arguments, when it starts at address `addr`. -/
def argsSpace (addr : Nat) (args : List Arg) : Nat := (8 - addr % 8) % 8 + 8 * args.length + blobsSpace args

theorem charByte_ne_zero {c : Char} {a : Arg} (h : Typed c a) : charByte c ≠ 0 := by
  cases h with
  | i _ _ h => rcases h with rfl | rfl | rfl <;> decide
  | s _ _ h _ => rcases h with rfl | rfl <;> decide
  | none _ h => rcases h with rfl | rfl | rfl | rfl <;> decide
  | _ => decide

theorem sig_no_nul {sig : List Char} {args : List Arg} (ht : List.Forall₂ Typed sig args) :
    0 ∉ (',' :: sig).map charByte := by
  have h0 : charByte ',' ≠ 0 := by decide
  have : 0 ∉ sig.map charByte := by
    induction ht with
    | nil => simp
    | cons h _ ih =>
      rw [List.map_cons, List.mem_cons, not_or]
      exact ⟨fun e => charByte_ne_zero h e.symm, ih⟩
  rw [List.map_cons, List.mem_cons, not_or]
  exact ⟨fun e => h0 e.symm, this⟩

/-- Decoding an OSC encoding followed by anything. -/
theorem osc_decode (path : List Byte) (sig : List Char) (args : List Arg) (junk : List Byte) (addr space : Nat)
    (hpath : 0 ∉ path) (ht : List.Forall₂ Typed sig args)
    (hlen : (encode path sig args ++ junk).length < 2 ^ 29) :
    (argsSpace addr args ≤ space → ∃ pathOff sigOff outs,
      extract (encode path sig args ++ junk) addr space
        = some (.ok (encode path sig args).length pathOff sigOff sig.length outs) ∧
      StringAt (encode path sig args ++ junk) pathOff path ∧
      StringAt (encode path sig args ++ junk) sigOff (sig.map charByte) ∧
      List.Forall₂ (Denotes (encode path sig args ++ junk)) outs args) ∧
    (space < argsSpace addr args → extract (encode path sig args ++ junk) addr space = some .noSpace) := by
  have hlen29 := hlen
  have hsigz := sig_no_nul ht
  generalize hsrc : encode path sig args ++ junk = src at *
  have h0 : src = oscString path ++ (oscString ((',' :: sig).map charByte) ++ (args.flatMap encodeArg ++ junk)) := by
    rw [← hsrc]; simp [encode]
  let r0 : Reader := { src := src, pos := 0, cap := src.length, allocAddr := addr, allocSize := space,
                       allocPos := 0, allocCap := space }
  have hr0 : r0.At (oscString path ++ (oscString ((',' :: sig).map charByte) ++ (args.flatMap encodeArg ++ junk))) := by
    rw [← h0]; exact ⟨rfl, rfl⟩
  have e1 := extractString_eq hr0 hpath (by show src.length < _; omega)
  have hr1 := hr0.skip
  have e2 := extractString_eq hr1 hsigz (by show src.length - _ < _; omega)
  have hr2 := hr1.skip
  have hsigAt : (r0.skip (oscString path).length).src.drop (r0.skip (oscString path).length).pos
      = charByte ',' :: (sig.map charByte ++ 0 :: (List.replicate ((4 - (sig.length + 2) % 4) % 4) 0
          ++ (args.flatMap encodeArg ++ junk))) := by
    rw [hr1.1]; simp [oscString, pad4]
  have hcomma := getElem?_of_drop hsigAt
  have hsig := drop_succ_of_drop hsigAt
  have hpadlen := oscString_length ((',' :: sig).map charByte)
  have hsl : src.length = (oscString path).length + ((oscString ((',' :: sig).map charByte)).length
      + ((args.flatMap encodeArg).length + junk.length)) := by rw [h0]; simp
  simp only [List.length_map, List.length_cons] at hpadlen
  have hal := ht.length_eq
  generalize hp : r0.skip (oscString path).length = r1 at *
  generalize hq : r1.skip (oscString ((',' :: sig).map charByte)).length = r2 at *
  have a2 : r2.allocAddr = addr ∧ r2.allocPos = 0 ∧ r2.allocCap = space ∧ r2.allocSize = space ∧ r2.src = src
      ∧ r2.pos = (oscString path).length + (oscString ((',' :: sig).map charByte)).length ∧ r1.src = src := by
    subst hq; subst hp
    simp [Reader.skip, r0]
  obtain ⟨a2a, a2p, a2c, a2s, a2src, a2pos, a1src⟩ := a2
  have hex : extract src addr space = extractMessage r0 := rfl
  have hu : u32 (((',' :: sig).map charByte).length - 1) = sig.length := by
    simp [u32]; omega
  have hpad : paddingSize (addr + 0) 8 = (8 - addr % 8) % 8 := by rw [paddingSize8, Nat.add_zero]
  have hsz : u32 ((((',' :: sig).map charByte).length - 1) * 8) = sig.length * 8 := by
    simp [u32]; omega
  have hsigl : ((',' :: sig).map charByte).length - 1 = sig.length := by simp
  rw [hex]
  unfold extractMessage
  rw [e1]
  simp only
  rw [e2]
  simp only
  rw [a2src, ← a1src, hcomma]
  simp only [ne_eq, not_true_eq_false, if_false]
  unfold allocate
  rw [a2a, a2p, a2c, hpad, hsz, hsigl]
  have hr0pos : r0.pos = 0 := rfl
  unfold argsSpace
  rw [← hal]
  by_cases hsp : space < (8 - addr % 8) % 8 + sig.length * 8
  · refine ⟨fun h => by omega, fun _ => ?_⟩
    rw [if_pos hsp]
  · rw [if_neg hsp]
    simp only
    have key := readArgs_eq ht
      { r2 with allocPos := 0 + ((8 - addr % 8) % 8 + sig.length * 8),
                allocCap := space - ((8 - addr % 8) % 8 + sig.length * 8), allocAddr := addr } junk
      (0 :: (List.replicate ((4 - (sig.length + 2) % 4) % 4) 0 ++ (args.flatMap encodeArg ++ junk)))
      (r1.pos + 1) (0 + (8 - addr % 8) % 8) [] hr2
      (by show r2.cap < _; rw [hr2.2, List.length_append]; omega)
      (by show r2.src.drop _ = _; rw [a2src, ← a1src]; exact hsig)
      (by show (addr + (0 + ((8 - addr % 8) % 8 + sig.length * 8))) % 8 = 0; omega)
      (by show (0 + ((8 - addr % 8) % 8 + sig.length * 8)) + (space - ((8 - addr % 8) % 8 + sig.length * 8)) ≤ r2.allocSize
          omega)
      (by show (0 + (8 - addr % 8) % 8) + 8 * sig.length ≤ 0 + ((8 - addr % 8) % 8 + sig.length * 8); omega)
    refine ⟨fun h => ?_, fun h => ?_⟩
    · obtain ⟨r4, outs, h1, h2, h3⟩ := key.1 (by
        show blobsSpace args ≤ space - ((8 - addr % 8) % 8 + sig.length * 8); omega)
      rw [h1]
      refine ⟨r0.pos, r1.pos + 1, outs, ?_, ?_, ?_, ?_⟩
      · simp only [List.nil_append]
        have hel : r4.pos - r0.pos = (encode path sig args).length := by
          rw [h2, hr0pos]
          show r2.pos + _ - 0 = _
          rw [a2pos]; simp only [encode, List.length_append]; omega
        rw [hel]
      · rw [a1src]; exact stringAt_oscString hpath hr0.1
      · refine ⟨?_, ?_⟩
        · rw [List.map_cons, List.mem_cons, not_or] at hsigz; exact hsigz.2
        · rw [hsig]; exact ⟨_, rfl⟩
      · have e : r2.src = r1.src := by rw [a1src]; exact a2src
        rw [← e]; exact h3
    · rw [key.2 (by show space - ((8 - addr % 8) % 8 + sig.length * 8) < blobsSpace args; omega)]

theorem typed_narrowed (conv : Conv) {sig : List Char} {args : List Arg} (ht : List.Forall₂ Typed sig args) :
    List.Forall₂ Typed sig (args.map (narrowed conv)) := by
  induction ht with
  | nil => exact .nil
  | cons h _ ih =>
    refine .cons ?_ ih
    cases h <;> constructor <;> assumption

theorem blobsSpace_narrowed (conv : Conv) (args : List Arg) :
    blobsSpace (args.map (narrowed conv)) = blobsSpace args := by
  unfold blobsSpace
  rw [List.map_map]
  congr 1
  apply List.map_congr_left
  intro a _
  cases a <;> rfl

/-- What a decoder sees of a message written by the encoder: everything comes back, with the doubles narrowed. -/
theorem osc_roundtrip_narrowed (conv : Conv) (mem : List Byte) (capacity : Nat) (path : List Byte) (sig : List Char)
    (args : List Arg) (addr space : Nat) (hpath : 0 ∉ path) (ht : List.Forall₂ Typed sig args)
    (hmem : capacity ≤ mem.length) (hcap : capacity < 2 ^ 29)
    (hlen : (encode path sig (args.map (narrowed conv))).length < 2 ^ 32)
    (hfit : (prepareMessage conv mem capacity path sig args).2 ≤ capacity)
    (hspace : argsSpace addr args ≤ space) :
    let out := prepareMessage conv mem capacity path sig args
    let buf := out.1.take capacity
    ∃ pathOff sigOff outs, extract buf addr space = some (.ok out.2 pathOff sigOff sig.length outs) ∧
      StringAt buf pathOff path ∧ StringAt buf sigOff (sig.map charByte) ∧
      List.Forall₂ (Denotes buf) outs (args.map (narrowed conv)) := by
  rw [osc_encode_capacity conv mem capacity path sig args ht hmem hlen] at hfit ⊢
  simp only at hfit ⊢
  generalize he : encode path sig (args.map (narrowed conv)) = e at *
  have hb : (e.take capacity ++ mem.drop (min capacity e.length)).take capacity
      = e ++ (mem.drop e.length).take (capacity - e.length) := by
    rw [List.take_of_length_le hfit, Nat.min_eq_right hfit, List.take_append, List.take_of_length_le hfit]
  rw [hb]
  subst he
  refine (osc_decode path sig (args.map (narrowed conv)) _ addr space hpath (typed_narrowed conv ht) ?_).1 ?_
  · rw [← hb, List.length_take]; omega
  · unfold argsSpace at *
    rw [blobsSpace_narrowed, List.length_map]; exact hspace

/-- **C05 (partial).** For every path, signature and arguments, encoding into a buffer that is large enough and decoding
that buffer gives back the path, the signature and the arguments, and consumes exactly the encoded length.
Missing: doubles that are not exactly representable as `float` (`osc_double_violated`); buffers of 2^29 bytes and more
(`osc_decode_huge_violated`). -/
theorem osc_roundtrip_partial (conv : Conv) (mem : List Byte) (capacity : Nat) (path : List Byte) (sig : List Char)
    (args : List Arg) (addr space : Nat) (hpath : 0 ∉ path) (ht : List.Forall₂ Typed sig args)
    (hdouble : ∀ v, .d v ∈ args → conv.widen (conv.narrow v) = v)
    (hmem : capacity ≤ mem.length) (hcap : capacity < 2 ^ 29) (hlen : (encode path sig args).length ≤ capacity)
    (hspace : argsSpace addr args ≤ space) :
    let out := prepareMessage conv mem capacity path sig args
    let buf := out.1.take capacity
    ∃ pathOff sigOff outs, extract buf addr space = some (.ok out.2 pathOff sigOff sig.length outs) ∧
      StringAt buf pathOff path ∧ StringAt buf sigOff (sig.map charByte) ∧
      List.Forall₂ (Denotes buf) outs args := by
  have hn : args.map (narrowed conv) = args := by
    conv_rhs => rw [← List.map_id args]
    apply List.map_congr_left
    intro a ha
    cases a <;> simp only [narrowed, id]
    rw [hdouble _ ha]
  have h := osc_roundtrip_narrowed conv mem capacity path sig args addr space hpath ht hmem hcap
    (by rw [hn]; omega)
    (by rw [osc_encode_capacity conv mem capacity path sig args ht hmem (by rw [hn]; omega), hn]; exact hlen) hspace
  rw [hn] at h
  exact h

/-- With too small a buffer for the arguments the decoder says so (-1) and never truncates. -/
theorem osc_decode_no_space (path : List Byte) (sig : List Char) (args : List Arg) (junk : List Byte) (addr space : Nat)
    (hpath : 0 ∉ path) (ht : List.Forall₂ Typed sig args)
    (hlen : (encode path sig args ++ junk).length < 2 ^ 29) (hs : space < argsSpace addr args) :
    extract (encode path sig args ++ junk) addr space = some .noSpace :=
  (osc_decode path sig args junk addr space hpath ht hlen).2 hs

/-- Witness for the hypotheses of the round trip. -/
example (conv : Conv) : let args : List Arg := [.i 7, .s [1, 2, 3], .b [9], .none]
    List.Forall₂ Typed ['i', 's', 'b', 'T'] args ∧ (∀ v, .d v ∈ args → conv.widen (conv.narrow v) = v) ∧
    (encode [47, 97] ['i', 's', 'b', 'T'] args).length = 28 ∧ argsSpace 4 args = 52 :=
  ⟨.cons (.i _ _ (by simp)) (.cons (.s _ _ (by simp) (by decide)) (.cons (.b _) (.cons (.none _ (by simp)) .nil))),
   by simp, by decide, by decide⟩

/-- **C05 violated for doubles.** Whatever the floating point formats are, since `appendDouble` takes a `float`, there is
a double that is decoded as another one. -/
theorem osc_double_violated (conv : Conv) :
    ∃ v v' : BitVec 64, v' ≠ v ∧ ∃ ret pathOff sigOff,
      extract ((prepareMessage conv (List.replicate 16 0) 16 [47] ['d'] [.d v]).1.take 16) 0 8
        = some (.ok ret pathOff sigOff 1 [.d v']) := by
  have hni : ∃ v : BitVec 64, conv.widen (conv.narrow v) ≠ v := by
    by_contra hcon
    push Not at hcon
    have hinj : Function.Injective conv.narrow := fun a b h => by rw [← hcon a, ← hcon b, h]
    have hinj2 : Function.Injective (fun x : Fin (2 ^ 64) => (conv.narrow (BitVec.ofFin x)).toFin) := by
      intro a b h
      have := hinj (BitVec.toFin_inj.mp h)
      simpa using this
    have := Fintype.card_le_of_injective _ hinj2
    rw [Fintype.card_fin, Fintype.card_fin] at this
    norm_num at this
  obtain ⟨v, hv⟩ := hni
  have ht : List.Forall₂ Typed ['d'] [.d v] := .cons (.d v) .nil
  have hl : ∀ x : BitVec 64, (encode [47] ['d'] [.d x]).length = 16 := by
    intro x
    simp only [encode, encodeArg, List.flatMap_cons, List.flatMap_nil, List.length_append, bigEndian_length]
    rfl
  have hl2 : (encode [47] ['d'] ([.d v].map (narrowed conv))).length = 16 := hl _
  have h := osc_roundtrip_narrowed conv (List.replicate 16 0) 16 [47] ['d'] [.d v] 0 8 (by decide) ht
    (by simp) (by norm_num) (by rw [hl2]; norm_num)
    (by rw [osc_encode_capacity conv _ _ _ _ _ ht (by simp) (by rw [hl2]; norm_num)]; exact hl2.le)
    (by simp [argsSpace, blobsSpace, blobSpace])
  obtain ⟨p, s, outs, h1, _, _, h2⟩ := h
  cases h2 with
  | cons ha hb =>
    cases hb
    cases ha
    exact ⟨v, _, hv, _, p, s, h1⟩

/-! ### C07 -/

/-- What decoded pointers may refer to: a NUL-terminated string of the message; a blob inside of the message, unless its
announced size is one of the three values above `2^32 - 4`. -/
def OutArg.Inside (src : List Byte) : OutArg → Prop
  | .s off => ∃ str, StringAt src off str
  | .b off size => off + size ≤ src.length ∨ 2 ^ 32 - 3 ≤ size
  | _ => True

theorem strnlen_safe (src : List Byte) : ∀ (n pos : Nat), pos + n ≤ src.length →
    ∃ len, strnlen src pos n = some len ∧ len ≤ n ∧
      (len < n → StringAt src pos ((src.drop pos).take len) ∧ ((src.drop pos).take len).length = len) := by
  intro n
  induction n with
  | zero => intro pos _; exact ⟨0, rfl, Nat.le_refl _, fun h => absurd h (Nat.lt_irrefl _)⟩
  | succ n ih =>
    intro pos h
    have hlt : pos < src.length := by omega
    have hd : src.drop pos = src[pos] :: src.drop (pos + 1) := (List.getElem_cons_drop hlt).symm
    by_cases hz : src[pos] = 0
    · refine ⟨0, by simp [strnlen, hlt, hz], by omega, fun _ => ⟨⟨by simp, src.drop (pos + 1), by simp [hd, hz]⟩, by simp⟩⟩
    · obtain ⟨len, h1, h2, h3⟩ := ih (pos + 1) (by omega)
      refine ⟨len + 1, by rw [strnlen, List.getElem?_eq_getElem hlt]; simp only; rw [if_neg hz, h1]; rfl, by omega, fun hl => ?_⟩
      obtain ⟨⟨h4, rest, h5⟩, h6⟩ := h3 (by omega)
      rw [hd, List.take_succ_cons]
      refine ⟨⟨?_, rest, ?_⟩, by simp [h6]⟩
      · rw [List.mem_cons, not_or]; exact ⟨fun e => hz e.symm, h4⟩
      · rw [hd, List.cons_append, ← h5]

/-- Invariant of the reader. -/
def Reader.Safe (r : Reader) : Prop := r.pos + r.cap = r.src.length ∧ r.allocPos + r.allocCap = r.allocSize

theorem extractString_safe (r : Reader) (hr : r.Safe) (hl : r.src.length < 2 ^ 29) :
    extractString r = some none ∨ ∃ r' len, extractString r = some (some (r', r.pos, len)) ∧ r'.Safe ∧
      r'.src = r.src ∧ r.pos ≤ r'.pos ∧ len < r.src.length ∧ r'.allocAddr = r.allocAddr ∧ r'.allocSize = r.allocSize ∧
      r'.allocPos = r.allocPos ∧
      ∃ str, StringAt r.src r.pos str ∧ str.length = len := by
  obtain ⟨len, h1, h2, h3⟩ := strnlen_safe r.src r.cap r.pos (by have := hr.1; omega)
  have hp := hr.1
  unfold extractString
  rw [h1]
  simp only
  by_cases he : len = r.cap
  · left; simp [he]
  · rw [if_neg he]
    split
    · left; rfl
    · rename_i hn
      right
      obtain ⟨h4, h5⟩ := h3 (by omega)
      exact ⟨_, len, rfl, ⟨by simp only; omega, hr.2⟩, rfl, by simp only; omega, by omega, rfl, rfl, rfl, _, h4, h5⟩

theorem readInteger_safe (src : List Byte) (bits : Nat) : ∀ (n pos acc : Nat), pos + n ≤ src.length →
    acc < 2 ^ bits → ∃ v, readInteger src bits pos n acc = some v ∧ v < 2 ^ bits := by
  intro n
  induction n with
  | zero => intro pos acc _ h; exact ⟨acc, rfl, h⟩
  | succ n ih =>
    intro pos acc h _
    have hlt : pos < src.length := by omega
    obtain ⟨v, hv, hb⟩ := ih (pos + 1) (((acc <<< 8) ||| src[pos].toNat) % 2 ^ bits) (by omega)
      (Nat.mod_lt _ (by positivity))
    exact ⟨v, by simp [readInteger, hlt, hv], hb⟩

theorem extractInteger_safe (r : Reader) (hr : r.Safe) (n : Nat) :
    extractInteger r n = some none ∨ ∃ r' v, extractInteger r n = some (some (r', v)) ∧ r'.Safe ∧
      r'.src = r.src ∧ r.pos ≤ r'.pos ∧ v < 2 ^ (8 * n) ∧ r'.allocAddr = r.allocAddr ∧ r'.allocSize = r.allocSize ∧
      r'.allocPos = r.allocPos := by
  have hp := hr.1
  unfold extractInteger
  split
  · left; rfl
  · right
    obtain ⟨v, hv, hb⟩ := readInteger_safe r.src (8 * n) n r.pos 0 (by omega) (by positivity)
    rw [hv]
    exact ⟨_, v, rfl, ⟨by simp only; omega, hr.2⟩, rfl, by simp only; omega, hb, rfl, rfl, rfl⟩

/-- Outcomes of `readArg` that are harmless. -/
def SafeStep (r : Reader) (x : Option ArgStep) : Prop :=
  x = some .fail ∨ x = some .noSpace ∨
    ∃ r' a, x = some (.next r' a) ∧ r'.Safe ∧ r'.src = r.src ∧ r.pos ≤ r'.pos ∧ r'.allocSize = r.allocSize ∧
      r.allocPos ≤ r'.allocPos ∧ a.Inside r.src

theorem readArg_safe (r : Reader) (hr : r.Safe) (hl : r.src.length < 2 ^ 29) (c : Byte) :
    SafeStep r (readArg r c) := by
  have hint : ∀ (n : Nat) (f : Nat → OutArg), (∀ v, (f v).Inside r.src) →
      SafeStep r (match extractInteger r n with
        | none => none
        | some none => some ArgStep.fail
        | some (some (r', v)) => some (.next r' (f v))) := by
    intro n f hf
    rcases extractInteger_safe r hr n with h | ⟨r', v, h, h1, h2, h3, h4, h5, h6, h7⟩
    · left; rw [h]
    · right; right
      rw [h]
      exact ⟨r', _, rfl, h1, h2, h3, h6, h7.ge, hf v⟩
  have hp := hr.1
  have hq := hr.2
  unfold readArg
  refine iteInduction (motive := SafeStep r) (fun _ => ?_) (fun _ => ?_)
  · exact hint 4 (fun v => .i (BitVec.ofNat 32 v)) (fun _ => trivial)
  refine iteInduction (motive := SafeStep r) (fun _ => ?_) (fun _ => ?_)
  · refine iteInduction (motive := SafeStep r) (fun _ => ?_) (fun _ => ?_)
    · left; rfl
    · rw [List.getElem?_eq_getElem (by omega : r.pos < r.src.length),
        List.getElem?_eq_getElem (by omega : r.pos + 1 < r.src.length),
        List.getElem?_eq_getElem (by omega : r.pos + 2 < r.src.length),
        List.getElem?_eq_getElem (by omega : r.pos + 3 < r.src.length)]
      right; right
      exact ⟨_, _, rfl, ⟨by simp only; omega, hr.2⟩, rfl, by simp only; omega, rfl, Nat.le_refl _, trivial⟩
  refine iteInduction (motive := SafeStep r) (fun _ => ?_) (fun _ => ?_)
  · exact hint 8 (fun v => .h (BitVec.ofNat 64 v)) (fun _ => trivial)
  refine iteInduction (motive := SafeStep r) (fun _ => ?_) (fun _ => ?_)
  · exact hint 4 (fun v => .f (BitVec.ofNat 32 v)) (fun _ => trivial)
  refine iteInduction (motive := SafeStep r) (fun _ => ?_) (fun _ => ?_)
  · exact hint 8 (fun v => .d (BitVec.ofNat 64 v)) (fun _ => trivial)
  refine iteInduction (motive := SafeStep r) (fun _ => ?_) (fun _ => ?_)
  · rcases extractString_safe r hr hl with h | ⟨r', len, h, h1, h2, h3, h4, h5, h6, h7, str, h8, _⟩
    · left; rw [h]
    · right; right
      rw [h]
      exact ⟨r', _, rfl, h1, h2, h3, h6, h7.ge, str, h8⟩
  refine iteInduction (motive := SafeStep r) (fun _ => ?_) (fun _ => ?_)
  · cases hal : allocate r 8 16 1 with
    | none => right; left; rfl
    | some p =>
      obtain ⟨r1, off⟩ := p
      unfold allocate at hal
      simp only at hal
      have hu : u32 (1 * 16) = 16 := rfl
      rw [hu] at hal
      split at hal
      · exact absurd hal (by simp)
      · rename_i hcap
        simp only [Option.some.injEq, Prod.mk.injEq] at hal
        obtain ⟨hr1, hoff⟩ := hal
        have s1 : r1.Safe := by subst hr1; exact ⟨hr.1, by simp only; omega⟩
        have s2 : r1.src = r.src := by subst hr1; rfl
        have s3 : r1.pos = r.pos := by subst hr1; rfl
        have s4 : r1.allocSize = r.allocSize := by subst hr1; rfl
        have s5 : r.allocPos ≤ r1.allocPos := by subst hr1; simp
        simp only
        rw [if_neg (by rw [s4]; omega)]
        rcases extractInteger_safe r1 s1 4 with h | ⟨r2, v, h, h1, h2, h3, h4, h5, h6, h7⟩
        · left; rw [h]
        · rw [h]
          simp only
          refine iteInduction (motive := SafeStep r) (fun _ => ?_) (fun hpl => ?_)
          · left; rfl
          · right; right
            have hv : v < 2 ^ 32 := h4
            have h1a := h1.1
            rw [h2, s2] at h1a
            refine ⟨_, _, rfl, ⟨?_, h1.2⟩, ?_, ?_, ?_, ?_, ?_⟩
            · simp only; rw [h2, s2]; omega
            · simp only; rw [h2, s2]
            · simp only; omega
            · simp only; rw [h6, s4]
            · simp only; omega
            · unfold OutArg.Inside
              rw [paddingSize4] at hpl
              unfold u32 at hpl
              omega
  refine iteInduction (motive := SafeStep r) (fun _ => ?_) (fun _ => ?_)
  · right; right
    exact ⟨r, _, rfl, hr, rfl, Nat.le_refl _, rfl, Nat.le_refl _, trivial⟩
  · left; rfl

theorem readArgs_safe : ∀ (n : Nat) (r : Reader) (sigPos argOff : Nat) (acc : List OutArg), r.Safe →
    r.src.length < 2 ^ 29 → sigPos + n ≤ r.src.length → argOff + 8 * n ≤ r.allocSize →
    (∀ a ∈ acc, a.Inside r.src) →
    ∃ res, readArgs n r sigPos argOff acc = some res ∧ ∀ r' args, res = .done r' args →
      r'.Safe ∧ r'.src = r.src ∧ r.pos ≤ r'.pos ∧ args.length = acc.length + n ∧ ∀ a ∈ args, a.Inside r.src := by
  intro n
  induction n with
  | zero =>
    intro r sigPos argOff acc hr _ _ _ hacc
    refine ⟨_, rfl, fun r' args h => ?_⟩
    cases h
    exact ⟨hr, rfl, Nat.le_refl _, rfl, hacc⟩
  | succ n ih =>
    intro r sigPos argOff acc hr hl hs ha hacc
    have hlt : sigPos < r.src.length := by omega
    simp only [readArgs, List.getElem?_eq_getElem hlt]
    rcases readArg_safe r hr hl r.src[sigPos] with h | h | ⟨r', a, h, h1, h2, h3, h4, h5, h6⟩
    · rw [h]; exact ⟨_, rfl, by simp⟩
    · rw [h]; exact ⟨_, rfl, by simp⟩
    · rw [h]
      simp only
      rw [if_neg (by omega)]
      obtain ⟨res, h7, h8⟩ := ih r' (sigPos + 1) (argOff + 8) (acc ++ [a]) h1 (by rw [h2]; exact hl) (by rw [h2]; omega)
        (by rw [h4]; omega) (by
          rw [h2]; intro b hb
          rcases List.mem_append.mp hb with hb | hb
          · exact hacc b hb
          · rw [List.mem_singleton.mp hb]; exact h6)
      refine ⟨res, h7, fun r2 args he => ?_⟩
      obtain ⟨g1, g2, g3, g4, g5⟩ := h8 r2 args he
      refine ⟨g1, by rw [g2, h2], by omega, by rw [g4]; simp; omega, by rw [← h2]; exact g5⟩

/-- **C07 (partial).** On every byte string (below 2^29 bytes), well formed or not, and every argument buffer, the decoder
makes no access outside of the two buffers (the result is not `none`); an accepted message is not longer than the buffer,
its path and signature are NUL-terminated strings of the buffer, and its string and blob arguments lie inside of the
buffer — except blobs announcing a size of `2^32 - 3` or more (`osc_decode_blob_violated`). -/
theorem osc_decode_safe_partial (src : List Byte) (addr space : Nat) (hl : src.length < 2 ^ 29) :
    ∃ res, extract src addr space = some res ∧ ∀ ret pathOff sigOff siglen args,
      res = .ok ret pathOff sigOff siglen args →
      ret ≤ src.length ∧ (∃ path, StringAt src pathOff path) ∧
      (∃ sig, StringAt src sigOff sig ∧ sig.length = siglen) ∧
      args.length = siglen ∧ ∀ a ∈ args, a.Inside src := by
  unfold extract extractMessage
  generalize hr0 : ({ src := src, pos := 0, cap := src.length, allocAddr := addr, allocSize := space,
                      allocPos := 0, allocCap := space } : Reader) = r0
  have hs0 : r0.Safe := by subst hr0; exact ⟨by simp, by simp⟩
  have hsrc0 : r0.src = src := by subst hr0; rfl
  have hpos0 : r0.pos = 0 := by subst hr0; rfl
  rw [← hsrc0] at hl ⊢
  rcases extractString_safe r0 hs0 hl with h | ⟨r1, len1, h, h1, h2, h3, h4, h5, h6, h7, path, h8, h9⟩
  · rw [h]; exact ⟨_, rfl, by simp⟩
  rw [h]
  simp only
  rcases extractString_safe r1 h1 (by rw [h2]; exact hl) with
    k | ⟨r2, len2, k, k1, k2, k3, k4, k5, k6, k7, sig, k8, k9⟩
  · rw [k]; exact ⟨_, rfl, by simp⟩
  rw [k]
  simp only
  have hfirst : ∃ c, r2.src[r1.pos]? = some c ∧ (c ≠ 0 → ∃ t, sig = c :: t) := by
    obtain ⟨hz, rest, hd⟩ := k8
    rw [k2]
    cases sig with
    | nil => exact ⟨0, getElem?_of_drop hd, fun h => absurd rfl h⟩
    | cons c t => exact ⟨c, getElem?_of_drop hd, fun _ => ⟨t, rfl⟩⟩
  obtain ⟨c, hc, hct⟩ := hfirst
  rw [hc]
  simp only
  by_cases hcomma : c ≠ charByte ','
  · rw [if_pos hcomma]; exact ⟨_, rfl, by simp⟩
  rw [if_neg hcomma]
  push Not at hcomma
  obtain ⟨t, ht⟩ := hct (by rw [hcomma]; decide)
  have hlen2 : len2 = t.length + 1 := by rw [← k9, ht]; rfl
  have hsigAt : StringAt r0.src (r1.pos + 1) t := by
    obtain ⟨hz, rest, hd⟩ := k8
    rw [ht, h2] at hd
    rw [ht, List.mem_cons, not_or] at hz
    exact ⟨hz.2, rest, drop_succ_of_drop hd⟩
  have hsigle : r1.pos + 1 + t.length + 1 ≤ r0.src.length := by
    obtain ⟨_, rest, hd⟩ := hsigAt
    have := congrArg List.length hd
    simp at this
    omega
  cases hal : allocate r2 8 8 (len2 - 1) with
  | none => exact ⟨_, rfl, by simp⟩
  | some p =>
    obtain ⟨r3, off⟩ := p
    unfold allocate at hal
    simp only at hal
    have hu : u32 ((len2 - 1) * 8) = t.length * 8 := by
      rw [hlen2]; unfold u32; rw [Nat.add_sub_cancel]; apply Nat.mod_eq_of_lt; omega
    rw [hu] at hal
    split at hal
    · exact absurd hal (by simp)
    · rename_i hcap
      simp only [Option.some.injEq, Prod.mk.injEq] at hal
      obtain ⟨hr3, hoff⟩ := hal
      have k1b := k1.2
      have s1 : r3.Safe := by subst hr3; exact ⟨k1.1, by simp only; omega⟩
      have s2 : r3.src = r0.src := by subst hr3; show r2.src = _; rw [k2, h2]
      have s3 : r3.pos = r2.pos := by subst hr3; rfl
      have s4 : r3.allocSize = r2.allocSize := by subst hr3; rfl
      obtain ⟨res, g1, g2⟩ := readArgs_safe (len2 - 1) r3 (r1.pos + 1) off [] s1 (by rw [s2]; exact hl)
        (by rw [s2]; omega) (by rw [s4]; omega) (by simp)
      simp only
      rw [g1]
      cases res with
      | fail => exact ⟨_, rfl, by simp⟩
      | noSpace => exact ⟨_, rfl, by simp⟩
      | done r4 args =>
        refine ⟨_, rfl, ?_⟩
        intro ret p s sl as he
        simp only [Result.ok.injEq] at he
        obtain ⟨rfl, rfl, rfl, rfl, rfl⟩ := he
        obtain ⟨f1, f2, f3, f4, f5⟩ := g2 r4 args rfl
        have f1a := f1.1
        rw [f2, s2] at f1a
        refine ⟨by omega, ⟨path, h8⟩, ⟨t, hsigAt, by omega⟩, by simpa using f4, by rw [← s2]; exact f5⟩

/-- Witness: an accepted message, and a truncated one. -/
example : extract [47, 0, 0, 0, 44, 115, 0, 0, 97, 98, 0, 0] 0 8 = some (.ok 12 0 5 1 [.s 8]) ∧
    extract [47, 0, 0, 0, 44, 115, 0, 0, 97, 98] 0 8 = some .invalid := by decide +kernel

/-- **C07 violated.** A twelve byte message is accepted with a blob argument of 4294967293 bytes starting at its end. -/
theorem osc_decode_blob_violated :
    extract [47, 0, 0, 0, 44, 98, 0, 0, 0xFF, 0xFF, 0xFF, 0xFD] 0 24 = some (.ok 12 0 5 1 [.b 12 0xFFFFFFFD]) := by
  decide +kernel

theorem huge_aux (sig : List Char) (args : List Arg) (ht : List.Forall₂ Typed sig args)
    (hn : u32 (sig.length * 8) = 0) (hl : (encode [47] ('i' :: sig.tail) (.i 0 :: args.tail)).length < 2 ^ 32)
    (hs : sig = 'i' :: sig.tail) (ha : args = .i 0 :: args.tail) :
    extract (encode [47] sig args) 0 0 = none := by
  rw [← hs, ← ha] at hl
  have hz := sig_no_nul ht
  generalize hsrc : encode [47] sig args = src at *
  have h0 : src = oscString [47] ++ (oscString ((',' :: sig).map charByte) ++ args.flatMap encodeArg) := by
    rw [← hsrc]; simp [encode]
  let r0 : Reader := { src := src, pos := 0, cap := src.length, allocAddr := 0, allocSize := 0,
                       allocPos := 0, allocCap := 0 }
  have hr0 : r0.At (oscString [47] ++ (oscString ((',' :: sig).map charByte) ++ args.flatMap encodeArg)) := by
    rw [← h0]; exact ⟨rfl, rfl⟩
  have e1 := extractString_eq hr0 (by decide) hl
  have hr1 := hr0.skip
  have e2 := extractString_eq hr1 hz (by show src.length - _ < _; omega)
  have hr2 := hr1.skip
  have hsigAt : (r0.skip (oscString [47]).length).src.drop (r0.skip (oscString [47]).length).pos
      = charByte ',' :: (sig.map charByte ++ 0 :: (List.replicate ((4 - (sig.length + 2) % 4) % 4) 0
          ++ args.flatMap encodeArg)) := by
    rw [hr1.1]; simp [oscString, pad4]
  have hcomma := getElem?_of_drop hsigAt
  have hsig := drop_succ_of_drop hsigAt
  have hex : extract src 0 0 = extractMessage r0 := rfl
  generalize hp : r0.skip (oscString [47]).length = r1 at *
  generalize hq : r1.skip (oscString ((',' :: sig).map charByte)).length = r2 at *
  have a2 : r2.allocAddr = 0 ∧ r2.allocPos = 0 ∧ r2.allocCap = 0 ∧ r2.allocSize = 0 ∧ r2.src = r1.src := by
    subst hq; subst hp
    simp [Reader.skip, r0]
  obtain ⟨a2a, a2p, a2c, a2s, a2src⟩ := a2
  have hsigl : ((',' :: sig).map charByte).length - 1 = sig.length := by simp
  have hsucc : sig.length = sig.tail.length + 1 := by rw [hs]; rfl
  rw [hex]
  unfold extractMessage
  rw [e1]
  simp only
  rw [e2]
  simp only
  rw [a2src, hcomma]
  simp only [ne_eq, not_true_eq_false, if_false]
  unfold allocate
  have hpad : paddingSize (0 + 0) 8 = 0 := rfl
  rw [hsigl, a2a, a2p, a2c, hn, hpad]
  simp only [Nat.lt_irrefl, if_false, Nat.add_zero]
  rw [hsucc]
  have hsig2 : r1.src.drop (r1.pos + 1) = charByte 'i' :: (sig.tail.map charByte ++ 0 :: (List.replicate ((4 - (sig.length + 2) % 4) % 4) 0
          ++ args.flatMap encodeArg)) := by
    have hm : sig.map charByte = charByte 'i' :: sig.tail.map charByte := by
      conv_lhs => rw [hs]
      rfl
    rw [hsig, hm, List.cons_append]
  have hr2' : r2.At (bigEndian 4 (0 : BitVec 32).toNat ++ args.tail.flatMap encodeArg) := by
    rw [ha] at hr2; exact hr2
  unfold readArgs
  simp only
  rw [a2src, getElem?_of_drop hsig2]
  simp only
  have hi : ∀ r : Reader, r.At (bigEndian 4 (0 : BitVec 32).toNat ++ args.tail.flatMap encodeArg) →
      readArg r (charByte 'i') = some (.next (r.skip 4) (.i 0)) := by
    intro r hr
    simp [readArg, extractInteger_eq hr (by decide)]
  rw [hi _ (by
    obtain ⟨g1, g2⟩ := hr2'
    refine ⟨?_, g2⟩
    rw [← a2src]; exact g1)]
  simp only
  rw [a2s]
  simp

/-- **C07 violated on huge inputs.** A signature of 2^29 tags makes the size of the argument array wrap to 0: with no room
at all for arguments, the decoder writes the first of them outside of the buffer. -/
theorem osc_decode_huge_violated :
    extract (encode [47] (List.replicate (2 ^ 29) 'i') (List.replicate (2 ^ 29) (.i 0))) 0 0 = none := by
  have ht : ∀ n, List.Forall₂ Typed (List.replicate n 'i') (List.replicate n (.i 0)) := by
    intro n
    induction n with
    | zero => exact .nil
    | succ n ih => exact .cons (.i _ _ (by simp)) ih
  have hargs : ∀ n, ((List.replicate n (Arg.i 0)).flatMap encodeArg).length = 4 * n := by
    intro n
    induction n with
    | zero => rfl
    | succ n ih =>
      rw [List.replicate_succ, List.flatMap_cons, List.length_append, ih]
      have : (encodeArg (.i 0)).length = 4 := rfl
      omega
  have key : ∀ n, u32 ((n + 1) * 8) = 0 → n + 1 ≤ 2 ^ 29 →
      extract (encode [47] (List.replicate (n + 1) 'i') (List.replicate (n + 1) (.i 0))) 0 0 = none := by
    intro n hn hle
    refine huge_aux _ _ (ht _) (by rw [List.length_replicate]; exact hn) ?_ ?_ ?_
    · rw [List.tail_replicate, List.tail_replicate, ← List.replicate_succ, ← List.replicate_succ]
      have hol := oscString_length ((',' :: List.replicate (n + 1) 'i').map charByte)
      rw [List.length_map, List.length_cons, List.length_replicate] at hol
      have hol1 : (oscString [47]).length = 4 := rfl
      have ha := hargs (n + 1)
      show (encode [47] (List.replicate (n + 1) 'i') (List.replicate (n + 1) (Arg.i 0))).length < _
      rw [encode, List.length_append, List.length_append, ha, hol, hol1]
      omega
    · rw [List.tail_replicate, ← List.replicate_succ]; rfl
    · rw [List.tail_replicate, ← List.replicate_succ]; rfl
  have h := key (2 ^ 29 - 1) (by norm_num [u32]) (by norm_num)
  rw [show 2 ^ 29 - 1 + 1 = 2 ^ 29 by norm_num] at h
  exact h

end Verif.Osc
