import Verif.Osc.Model
import Mathlib.Tactic.Linarith
import Mathlib.Data.Nat.Bitwise

/-! Helper lemmas for the OSC model. -/
namespace Verif.Osc

/-! ### Vocabulary shared by lemmas and properties -/

/-- Pad with zeros to a multiple of four bytes. -/
def pad4 (bs : List Byte) : List Byte := bs ++ List.replicate ((4 - bs.length % 4) % 4) 0

/-- An OSC string: the characters, a NUL, zeros to a multiple of four. -/
def oscString (s : List Byte) : List Byte := pad4 (s ++ [0])

/-- `n` bytes of `v`, most significant first. -/
def bigEndian : Nat → Nat → List Byte
  | 0, _ => []
  | n + 1, v => BitVec.ofNat 8 (v / 256 ^ n) :: bigEndian n (v % 256 ^ n)

/-- OSC encoding of an argument. -/
def encodeArg : Arg → List Byte
  | .i v => bigEndian 4 v.toNat
  | .h v => bigEndian 8 v.toNat
  | .f v => bigEndian 4 v.toNat
  | .d v => bigEndian 8 v.toNat
  | .s v => oscString v
  | .b v => bigEndian 4 v.length ++ pad4 v
  | .m x y z t => [x, y, z, t]
  | .none => []

/-- OSC encoding of a message. -/
def encode (path : List Byte) (sig : List Char) (args : List Arg) : List Byte :=
  oscString path ++ oscString ((',' :: sig).map charByte) ++ args.flatMap encodeArg

/-- The argument is of the type announced by the tag; strings have no embedded NUL. -/
inductive Typed : Char → Arg → Prop
  | i (c) (v) : c = 'i' ∨ c = 'c' ∨ c = 'r' → Typed c (.i v)
  | h (v) : Typed 'h' (.h v)
  | f (v) : Typed 'f' (.f v)
  | d (v) : Typed 'd' (.d v)
  | s (c) (v) : c = 's' ∨ c = 'S' → 0 ∉ v → Typed c (.s v)
  | b (v) : Typed 'b' (.b v)
  | m (x y z t) : Typed 'm' (.m x y z t)
  | none (c) : c = 'T' ∨ c = 'F' ∨ c = 'N' ∨ c = 'I' → Typed c .none

/-- A NUL-terminated string `s` is found at offset `off`. -/
def StringAt (src : List Byte) (off : Nat) (s : List Byte) : Prop :=
  0 ∉ s ∧ ∃ rest, src.drop off = s ++ 0 :: rest

/-- What a decoded argument, with its pointers followed into the buffer `src`, stands for. -/
inductive Denotes (src : List Byte) : OutArg → Arg → Prop
  | i (v) : Denotes src (.i v) (.i v)
  | h (v) : Denotes src (.h v) (.h v)
  | f (v) : Denotes src (.f v) (.f v)
  | d (v) : Denotes src (.d v) (.d v)
  | s (off) (v) : StringAt src off v → Denotes src (.s off) (.s v)
  | b (off) (v rest) : src.drop off = v ++ rest → Denotes src (.b off v.length) (.b v)
  | m (x y z t) : Denotes src (.m x y z t) (.m x y z t)
  | none : Denotes src .none .none

/-- Doubles after a passage through `float`. -/
def narrowed (conv : Conv) : Arg → Arg
  | .d v => .d (conv.widen (conv.narrow v))
  | a => a

/-! ### Arithmetic -/

theorem paddingSize4 (n : Nat) : paddingSize n 4 = (4 - n % 4) % 4 := by
  unfold paddingSize
  have h3 : ∀ m, m &&& (4 - 1) = m % 4 := fun m => Nat.and_two_pow_sub_one_eq_mod m 2
  rw [h3, h3]

theorem paddingSize8 (n : Nat) : paddingSize n 8 = (8 - n % 8) % 8 := by
  unfold paddingSize
  have h3 : ∀ m, m &&& (8 - 1) = m % 8 := fun m => Nat.and_two_pow_sub_one_eq_mod m 3
  rw [h3, h3]

theorem pad4_length (bs : List Byte) : (pad4 bs).length = bs.length + (4 - bs.length % 4) % 4 := by
  simp [pad4]

theorem oscString_length (s : List Byte) :
    (oscString s).length = s.length + 1 + (4 - (s.length + 1) % 4) % 4 := by
  simp [oscString, pad4_length]

theorem bigEndian_length (n v : Nat) : (bigEndian n v).length = n := by
  induction n generalizing v with
  | zero => rfl
  | succ n ih => simp [bigEndian, ih]

theorem bigEndian_eq_map (n v : Nat) :
    bigEndian n v = (List.range n).map fun i => BitVec.ofNat 8 (v / 256 ^ (n - 1 - i)) := by
  induction n generalizing v with
  | zero => rfl
  | succ n ih =>
    rw [bigEndian, ih, List.range_succ_eq_map, List.map_cons, List.map_map]
    simp only [Nat.add_sub_cancel, Nat.sub_zero]
    congr 1
    apply List.map_congr_left
    intro i hi
    have hi : i < n := by simpa using hi
    have e1 : n - (i + 1) = n - 1 - i := by omega
    show _ = BitVec.ofNat 8 (v / 256 ^ (n - (i + 1)))
    rw [e1]
    apply BitVec.eq_of_toNat_eq
    simp only [BitVec.toNat_ofNat]
    have e2 : 256 ^ n = 256 ^ (n - 1 - i) * (256 * 256 ^ i) := by
      rw [← pow_succ', ← pow_add]; congr 1; omega
    rw [e2, Nat.mod_mul_right_div_self, Nat.mod_mul_right_mod]

theorem integerBytes_eq (n v : Nat) : integerBytes n v = bigEndian n v := by
  rw [bigEndian_eq_map]
  unfold integerBytes
  apply List.map_congr_left
  intro i _
  apply BitVec.eq_of_toNat_eq
  have : (255 : Nat) = 2 ^ 8 - 1 := rfl
  simp only [BitVec.toNat_ofNat, this, Nat.and_two_pow_sub_one_eq_mod, Nat.shiftRight_eq_div_pow]
  rw [pow_mul]
  simp

/-! ### Writer -/

/-- Writing a byte string through the writer. -/
def Writer.out (w : Writer) (bs : List Byte) : Writer :=
  { mem := poke w.mem w.pos (bs.take w.cap), pos := w.pos + min w.cap bs.length, cap := w.cap - bs.length }

theorem poke_poke (m : List Byte) (p : Nat) (a b : List Byte) (hp : p ≤ m.length) :
    poke (poke m p a) (p + a.length) b = poke m p (a ++ b) := by
  unfold poke
  have h1 : (m.take p ++ a ++ m.drop (p + a.length)).take (p + a.length) = m.take p ++ a := by
    rw [List.take_left' (by simp [hp])]
  have h2 : (m.take p ++ a ++ m.drop (p + a.length)).drop (p + a.length + b.length)
      = m.drop (p + (a ++ b).length) := by
    rw [← List.drop_drop, List.drop_left' (by simp [hp]), List.drop_drop]
    simp [Nat.add_assoc]
  rw [h1, h2]
  simp [List.append_assoc]

/-- The writer stays inside its memory. -/
def Writer.Ok (w : Writer) : Prop := w.pos + w.cap ≤ w.mem.length

theorem poke_length (m : List Byte) (p : Nat) (a : List Byte) (h : p + a.length ≤ m.length) :
    (poke m p a).length = m.length := by
  simp [poke]; omega

theorem Writer.out_ok {w : Writer} (h : w.Ok) (bs : List Byte) : (w.out bs).Ok := by
  unfold Writer.Ok Writer.out at *
  simp only
  rw [poke_length]
  · simp only [Nat.min_def]; split <;> omega
  · simp; omega

theorem Writer.out_out {w : Writer} (h : w.Ok) (a b : List Byte) : (w.out a).out b = w.out (a ++ b) := by
  unfold Writer.out Writer.Ok at *
  have hl : min w.cap a.length = (a.take w.cap).length := by simp
  simp only [Writer.mk.injEq]
  refine ⟨?_, ?_, ?_⟩
  · rw [hl, poke_poke _ _ _ _ (by omega), List.take_append]
  · simp; omega
  · simp; omega

theorem appendBytes_eq (w : Writer) (src : List Byte) (n : Nat) (hn : src.length = n) :
    appendBytes w src n = (w.out src, n) := by
  subst hn
  unfold appendBytes Writer.out
  simp only [Prod.mk.injEq, Writer.mk.injEq, true_and, and_true]
  constructor
  · congr 1
    rcases Nat.le_total w.cap src.length with h | h
    · rw [Nat.min_eq_left h]
    · rw [Nat.min_eq_right h, List.take_of_length_le h, List.take_of_length_le (Nat.le_refl _)]
  · omega

theorem appendZeros_eq (w : Writer) (n : Nat) :
    appendZeros w n = (w.out (List.replicate n 0), n) := by
  unfold appendZeros Writer.out
  simp only [Prod.mk.injEq, Writer.mk.injEq, and_true, List.take_replicate, List.length_replicate, true_and]
  omega

theorem appendInteger_eq (w : Writer) (n v : Nat) :
    appendInteger w n v = (w.out (bigEndian n v), n) := by
  unfold appendInteger
  rw [integerBytes_eq, appendBytes_eq _ _ _ (bigEndian_length n v)]

theorem appendString_eq {w : Writer} (hw : w.Ok) (k : Nat) (s : List Byte)
    (hk : k + (oscString s).length < 2 ^ 32) :
    appendString w k s = (w.out (oscString s), k + (oscString s).length) := by
  have hl := oscString_length s
  have h1 : u32 (s.length + 1) = s.length + 1 := Nat.mod_eq_of_lt (by omega)
  unfold appendString
  simp only [h1]
  rw [appendBytes_eq _ _ _ (by simp)]
  simp only [appendZeros_eq]
  rw [Writer.out_out hw, paddingSize4]
  have e : s ++ [0] ++ List.replicate ((4 - (s.length + 1) % 4) % 4) 0 = oscString s := by
    simp [oscString, pad4]
  rw [e]
  congr 1
  unfold u32
  omega

theorem writeArg_eq (conv : Conv) {w : Writer} (hw : w.Ok) (k : Nat) (c : Char) (a : Arg) (ht : Typed c a)
    (hk : k + (encodeArg (narrowed conv a)).length < 2 ^ 32) :
    writeArg conv w k c a
      = some (w.out (encodeArg (narrowed conv a)), k + (encodeArg (narrowed conv a)).length) := by
  cases ht with
  | i _ v hc =>
    rcases hc with rfl | rfl | rfl <;>
    · simp only [narrowed, encodeArg, bigEndian_length] at hk ⊢
      simp [writeArg, appendInteger_eq, u32]; omega
  | h v =>
    simp only [narrowed, encodeArg, bigEndian_length] at hk ⊢
    simp [writeArg, appendInteger_eq, u32]; omega
  | f v =>
    simp only [narrowed, encodeArg, bigEndian_length] at hk ⊢
    simp [writeArg, appendInteger_eq, u32]; omega
  | d v =>
    simp only [narrowed, encodeArg, bigEndian_length] at hk ⊢
    simp [writeArg, appendInteger_eq, u32]; omega
  | s _ v hc hz =>
    simp only [narrowed, encodeArg] at hk ⊢
    rcases hc with rfl | rfl <;> simp [writeArg, appendString_eq hw k v hk]
  | b v =>
    simp only [narrowed, encodeArg, List.length_append, bigEndian_length, pad4_length] at hk ⊢
    have h1 : u32 v.length = v.length := Nat.mod_eq_of_lt (by omega)
    simp only [writeArg, h1]
    simp only [Char.reduceEq, or_self, if_false, if_true, appendInteger_eq, appendBytes_eq _ v _ rfl, appendZeros_eq,
      paddingSize4, Option.some.injEq, Prod.mk.injEq]
    rw [Writer.out_out hw, Writer.out_out hw, pad4, List.append_assoc]
    refine ⟨rfl, ?_⟩
    unfold u32; omega
  | m x y z t =>
    simp only [narrowed, encodeArg, List.length_cons, List.length_nil] at hk ⊢
    simp [writeArg, appendBytes_eq, u32]; omega
  | none _ hc =>
    have e : w.out [] = w := by
      cases w with | mk m p c' => 
      simp [Writer.out, poke]
    rcases hc with rfl | rfl | rfl | rfl <;> simp [writeArg, narrowed, encodeArg, e]

theorem Writer.out_nil (w : Writer) : w.out [] = w := by
  cases w with | mk m p c' => 
  simp [Writer.out, poke]

theorem writeArgs_eq (conv : Conv) (sig : List Char) (args : List Arg) (ht : List.Forall₂ Typed sig args) :
    ∀ {w : Writer} (_ : w.Ok) (k : Nat)
    (_ : k + ((args.map (narrowed conv)).flatMap encodeArg).length < 2 ^ 32),
    writeArgs conv w k sig args
      = (w.out ((args.map (narrowed conv)).flatMap encodeArg),
         k + ((args.map (narrowed conv)).flatMap encodeArg).length) := by
  induction ht with
  | nil => intro w _ k _; simp [writeArgs, Writer.out_nil]
  | @cons c a sig args hca hs ih =>
    intro w hw k hk
    simp only [List.map_cons, List.flatMap_cons, List.length_append] at hk ⊢
    simp only [writeArgs, writeArg_eq conv hw k c a hca (by omega)]
    rw [ih (Writer.out_ok hw _) _ (by omega), Writer.out_out hw, Nat.add_assoc]

theorem writeMessage_eq (conv : Conv) (path : List Byte) (sig : List Char) (args : List Arg)
    (ht : List.Forall₂ Typed sig args) {w : Writer} (hw : w.Ok)
    (hk : (encode path sig (args.map (narrowed conv))).length < 2 ^ 32) :
    writeMessage conv w path sig args
      = (w.out (encode path sig (args.map (narrowed conv))),
         (encode path sig (args.map (narrowed conv))).length) := by
  unfold encode at hk ⊢
  simp only [List.length_append] at hk ⊢
  have hs := oscString_length ((',' :: sig).map charByte)
  simp only [List.length_map, List.length_cons] at hs
  unfold writeMessage
  rw [appendString_eq hw 0 path (by omega)]
  have h1 : u32 (sig.length + 1) = sig.length + 1 := Nat.mod_eq_of_lt (by omega)
  have h2 : u32 (sig.length + 2) = sig.length + 2 := Nat.mod_eq_of_lt (by omega)
  simp only [h1, h2]
  rw [appendBytes_eq _ _ 1 (by simp)]
  simp only
  rw [appendBytes_eq _ _ (sig.length + 1) (by simp)]
  simp only [appendZeros_eq, paddingSize4]
  have e : oscString ((',' :: sig).map charByte)
      = [charByte ','] ++ (sig.map charByte ++ [0]) ++ List.replicate ((4 - (sig.length + 2) % 4) % 4) 0 := by
    simp [oscString, pad4]
  have hk2 : u32 (u32 (u32 (0 + (oscString path).length + 1) + (sig.length + 1)) + (4 - (sig.length + 2) % 4) % 4)
      = (oscString path).length + (oscString ((',' :: sig).map charByte)).length := by
    unfold u32; omega
  rw [hk2]
  rw [Writer.out_out hw, Writer.out_out hw, Writer.out_out hw]
  rw [writeArgs_eq conv sig args ht (Writer.out_ok hw _) _ (by omega), Writer.out_out hw]
  simp only [e, List.append_assoc]

/-! ### Reader: decoding a well-formed message -/

theorem getElem?_of_drop {α} {src : List α} {pos : Nat} {c : α} {rest : List α} (h : src.drop pos = c :: rest) :
    src[pos]? = some c := by
  have : (src.drop pos)[0]? = some c := by rw [h]; rfl
  rwa [List.getElem?_drop, Nat.add_zero] at this

theorem drop_succ_of_drop {α} {src : List α} {pos : Nat} {c : α} {rest : List α} (h : src.drop pos = c :: rest) :
    src.drop (pos + 1) = rest := by
  rw [← List.drop_drop, h]; rfl

theorem drop_of_drop_append {α} {src : List α} {pos : Nat} {a rest : List α} (h : src.drop pos = a ++ rest) :
    src.drop (pos + a.length) = rest := by
  rw [← List.drop_drop, h, List.drop_left]

theorem strnlen_eq (src : List Byte) (s : List Byte) : ∀ (pos n : Nat) (rest : List Byte),
    src.drop pos = s ++ 0 :: rest → 0 ∉ s → s.length < n → strnlen src pos n = some s.length := by
  induction s with
  | nil =>
    intro pos n rest h _ hn
    obtain ⟨n, rfl⟩ : ∃ k, n = k + 1 := ⟨n - 1, by simp at hn; omega⟩
    simp [strnlen, getElem?_of_drop h]
  | cons c s ih =>
    intro pos n rest h hz hn
    obtain ⟨n, rfl⟩ : ∃ k, n = k + 1 := ⟨n - 1, by simp at hn; omega⟩
    simp only [List.mem_cons, not_or] at hz
    simp only [List.length_cons] at hn
    rw [List.cons_append] at h
    simp [strnlen, getElem?_of_drop h, ih (pos + 1) n rest (drop_succ_of_drop h) hz.2 (by omega)]
    exact Ne.symm hz.1

/-- The reader's capacity is what remains of the source. -/
def Reader.At (r : Reader) (bs : List Byte) : Prop := r.src.drop r.pos = bs ∧ r.cap = bs.length

/-- The reader after consuming `n` bytes. -/
def Reader.skip (r : Reader) (n : Nat) : Reader := { r with pos := r.pos + n, cap := r.cap - n }

theorem Reader.At.skip {r : Reader} {a rest : List Byte} (h : r.At (a ++ rest)) : (r.skip a.length).At rest := by
  refine ⟨drop_of_drop_append h.1, ?_⟩
  simp [Reader.skip, h.2]

theorem extractString_eq {r : Reader} {s rest : List Byte} (hr : r.At (oscString s ++ rest)) (hz : 0 ∉ s)
    (hcap : r.cap < 2 ^ 32) :
    extractString r = some (some (r.skip (oscString s).length, r.pos, s.length)) := by
  have hl := oscString_length s
  have hc := hr.2
  rw [List.length_append] at hc
  unfold extractString
  rw [strnlen_eq r.src s r.pos r.cap (List.replicate ((4 - (s.length + 1) % 4) % 4) 0 ++ rest)
    (by rw [hr.1]; simp [oscString, pad4]) hz (by omega)]
  have h1 : u32 (s.length + 1) = s.length + 1 := Nat.mod_eq_of_lt (by omega)
  have h2 : u32 (s.length + 1 + (4 - (s.length + 1) % 4) % 4) = (oscString s).length := by
    unfold u32; omega
  simp only [h1, paddingSize4, h2]
  rw [if_neg (by omega), if_neg (by omega)]
  rfl

theorem readInteger_eq (src : List Byte) (bits : Nat) : ∀ (n pos acc v : Nat) (rest : List Byte),
    src.drop pos = bigEndian n v ++ rest → v < 256 ^ n → acc * 256 ^ n + v < 2 ^ bits →
    readInteger src bits pos n acc = some (acc * 256 ^ n + v) := by
  intro n
  induction n with
  | zero => intro pos acc v rest _ hv hb; simp at hv; simp [readInteger, hv]
  | succ n ih =>
    intro pos acc v rest h hv hb
    rw [bigEndian, List.cons_append] at h
    have hd : v / 256 ^ n < 256 := by
      rw [Nat.div_lt_iff_lt_mul (by positivity), ← pow_succ']; exact hv
    have hmod : v % 256 ^ n + 256 ^ n * (v / 256 ^ n) = v := Nat.mod_add_div v (256 ^ n)
    have hor : (acc <<< 8 ||| v / 256 ^ n) = acc * 256 + v / 256 ^ n := by
      rw [← Nat.shiftLeft_add_eq_or_of_lt (by simpa using hd), Nat.shiftLeft_eq]
    have hval : (acc * 256 + v / 256 ^ n) * 256 ^ n + v % 256 ^ n = acc * 256 ^ (n + 1) + v := by
      rw [pow_succ', Nat.add_mul, Nat.mul_comm (v / 256 ^ n)]; linarith [hmod, Nat.mul_assoc acc 256 (256 ^ n)]
    have hpos : 1 ≤ 256 ^ n := Nat.one_le_pow _ _ (by norm_num)
    have hlt : acc * 256 + v / 256 ^ n < 2 ^ bits := by
      have : acc * 256 + v / 256 ^ n ≤ (acc * 256 + v / 256 ^ n) * 256 ^ n := Nat.le_mul_of_pos_right _ hpos
      omega
    simp only [readInteger, getElem?_of_drop h, BitVec.toNat_ofNat]
    rw [Nat.mod_eq_of_lt (a := v / 256 ^ n) (by simpa using hd), hor, Nat.mod_eq_of_lt hlt,
      ih (pos + 1) _ (v % 256 ^ n) rest (drop_succ_of_drop h) (Nat.mod_lt _ hpos) (by omega), hval]

theorem extractInteger_eq {r : Reader} {n v : Nat} {rest : List Byte} (hr : r.At (bigEndian n v ++ rest))
    (hv : v < 2 ^ (8 * n)) :
    extractInteger r n = some (some (r.skip n, v)) := by
  have hc := hr.2
  rw [List.length_append, bigEndian_length] at hc
  have e : (2 : Nat) ^ (8 * n) = 256 ^ n := by rw [pow_mul]; norm_num
  unfold extractInteger
  rw [if_neg (by omega), readInteger_eq r.src (8 * n) n r.pos 0 v rest hr.1 (by rw [← e]; exact hv) (by omega)]
  simp [Reader.skip]

/-- Space taken by the structure behind a blob argument. -/
def blobSpace : Arg → Nat
  | .b _ => 16
  | _ => 0

/-- Space taken by all of them. -/
def blobsSpace (args : List Arg) : Nat := (args.map blobSpace).sum

theorem stringAt_oscString {src : List Byte} {off : Nat} {s rest : List Byte} (hz : 0 ∉ s)
    (h : src.drop off = oscString s ++ rest) : StringAt src off s :=
  ⟨hz, List.replicate ((4 - (s.length + 1) % 4) % 4) 0 ++ rest, by rw [h]; simp [oscString, pad4]⟩

theorem readArg_noSpace {r : Reader} {c : Char} {a : Arg} (ht : Typed c a)
    (ha : (r.allocAddr + r.allocPos) % 8 = 0) (hs : r.allocCap < blobSpace a) :
    readArg r (charByte c) = some .noSpace := by
  cases ht <;> simp only [blobSpace, Nat.not_lt_zero] at hs
  have : allocate r 8 16 1 = none := by
    unfold allocate
    rw [paddingSize8, ha]
    simp [u32]; omega
  simp [readArg, charByte, this]

theorem readArg_eq {r : Reader} {c : Char} {a : Arg} {rest : List Byte} (ht : Typed c a)
    (hr : r.At (encodeArg a ++ rest)) (hcap : r.cap < 2 ^ 32)
    (ha : (r.allocAddr + r.allocPos) % 8 = 0) (hsz : r.allocPos + r.allocCap ≤ r.allocSize)
    (hs : blobSpace a ≤ r.allocCap) :
    ∃ r' o, readArg r (charByte c) = some (.next r' o) ∧ r'.At rest ∧ r'.src = r.src ∧
      r'.pos = r.pos + (encodeArg a).length ∧ r'.cap ≤ r.cap ∧ r'.allocAddr = r.allocAddr ∧ r'.allocSize = r.allocSize ∧
      r'.allocPos = r.allocPos + blobSpace a ∧ r'.allocCap = r.allocCap - blobSpace a ∧ Denotes r.src o a := by
  cases ht with
  | i _ v hc =>
    have h := extractInteger_eq hr v.isLt
    rw [← bigEndian_length 4 v.toNat] at h
    refine ⟨r.skip (bigEndian 4 v.toNat).length, .i v, ?_, hr.skip, rfl, rfl, Nat.sub_le _ _, rfl, rfl, rfl, rfl, .i v⟩
    rw [bigEndian_length] at h ⊢
    rcases hc with rfl | rfl | rfl <;> simp [readArg, charByte, h]
  | h v =>
    have h := extractInteger_eq (n := 8) hr v.isLt
    refine ⟨r.skip (bigEndian 8 v.toNat).length, .h v, ?_, hr.skip, rfl, rfl, Nat.sub_le _ _, rfl, rfl, rfl, rfl, .h v⟩
    rw [bigEndian_length]
    simp [readArg, charByte, h]
  | f v =>
    have h := extractInteger_eq (n := 4) hr v.isLt
    refine ⟨r.skip (bigEndian 4 v.toNat).length, .f v, ?_, hr.skip, rfl, rfl, Nat.sub_le _ _, rfl, rfl, rfl, rfl, .f v⟩
    rw [bigEndian_length]
    simp [readArg, charByte, h]
  | d v =>
    have h := extractInteger_eq (n := 8) hr v.isLt
    refine ⟨r.skip (bigEndian 8 v.toNat).length, .d v, ?_, hr.skip, rfl, rfl, Nat.sub_le _ _, rfl, rfl, rfl, rfl, .d v⟩
    rw [bigEndian_length]
    simp [readArg, charByte, h]
  | s _ v hc hz =>
    have h := extractString_eq hr hz hcap
    refine ⟨r.skip (oscString v).length, .s r.pos, ?_, hr.skip, rfl, rfl, Nat.sub_le _ _, rfl, rfl, rfl, rfl,
      .s _ _ (stringAt_oscString hz hr.1)⟩
    rcases hc with rfl | rfl <;> simp [readArg, charByte, h]
  | m x y z t =>
    have h1 := hr.1
    have h2 := hr.2
    simp only [encodeArg, List.cons_append, List.nil_append, List.length_cons] at h1 h2
    have g1 := getElem?_of_drop h1
    have d1 := drop_succ_of_drop h1
    have g2 := getElem?_of_drop d1
    have d2 := drop_succ_of_drop d1
    have g3 := getElem?_of_drop d2
    have d3 := drop_succ_of_drop d2
    have g4 := getElem?_of_drop d3
    refine ⟨r.skip 4, .m x y z t, ?_, hr.skip, rfl, rfl, Nat.sub_le _ _, rfl, rfl, rfl, rfl, .m x y z t⟩
    have hn : ¬ r.cap < 4 := by omega
    simp [readArg, charByte, hn, g1, g2, g3, g4, Reader.skip]
  | none _ hc =>
    refine ⟨r, .none, ?_, hr, rfl, rfl, Nat.le_refl _, rfl, rfl, rfl, rfl, .none⟩
    rcases hc with rfl | rfl | rfl | rfl <;> simp [readArg, charByte]
  | b v =>
    simp only [blobSpace] at hs
    simp only [encodeArg] at hr
    have hlen : (bigEndian 4 v.length ++ pad4 v ++ rest).length < 2 ^ 32 := by rw [← hr.2]; exact hcap
    simp only [List.length_append, bigEndian_length, pad4_length] at hlen
    let r1 : Reader := { r with allocPos := r.allocPos + (0 + 16), allocCap := r.allocCap - (0 + 16) }
    have hal : allocate r 8 16 1 = some (r1, r.allocPos) := by
      unfold allocate
      rw [paddingSize8, ha]
      have : u32 (1 * 16) = 16 := rfl
      rw [this]
      simp only [Nat.sub_zero, Nat.mod_self, r1, Nat.add_zero]
      rw [if_neg (by omega)]
    have hr1 : r1.At (bigEndian 4 v.length ++ (pad4 v ++ rest)) := by
      refine ⟨?_, ?_⟩
      · show r.src.drop r.pos = _
        rw [hr.1, List.append_assoc]
      · show r.cap = _
        rw [hr.2, List.append_assoc]
    have hi := extractInteger_eq (n := 4) hr1 (v := v.length) (by omega)
    have hr2 := hr1.skip
    rw [bigEndian_length] at hr2
    have hr3 := hr2.skip
    have hp : u32 (v.length + paddingSize v.length 4) = (pad4 v).length := by
      rw [paddingSize4, pad4_length]; unfold u32; omega
    refine ⟨(r1.skip 4).skip (pad4 v).length, .b (r.pos + 4) v.length, ?_, hr3, rfl, ?_, ?_, rfl, rfl, rfl, rfl, ?_⟩
    · have hn : ¬ (r.allocPos + 16 > r1.allocSize) := by show ¬ (_ > r.allocSize); omega
      have hn2 : ¬ ((r1.skip 4).cap < (pad4 v).length) := by
        rw [hr2.2]; simp
      simp only [readArg, charByte, hal]
      simp only [Char.reduceToNat, BitVec.reduceOfNat, BitVec.reduceEq, or_self, if_false, if_true, hn, hi, hp, hn2]
      rfl
    · simp [Reader.skip, encodeArg, bigEndian_length, r1]; omega
    · simp [Reader.skip, r1]; omega
    · exact .b _ _ _ (by
        have := hr2.1
        have e : (r1.skip 4).src = r.src := rfl
        have e2 : (r1.skip 4).pos = r.pos + 4 := rfl
        rw [e, e2] at this
        rw [this, pad4, List.append_assoc])

theorem readArgs_eq {sig : List Char} {args : List Arg} (ht : List.Forall₂ Typed sig args) :
    ∀ (r : Reader) (rest tail : List Byte) (sigPos argOff : Nat) (acc : List OutArg),
    r.At (args.flatMap encodeArg ++ rest) → r.cap < 2 ^ 32 →
    r.src.drop sigPos = sig.map charByte ++ tail →
    (r.allocAddr + r.allocPos) % 8 = 0 → r.allocPos + r.allocCap ≤ r.allocSize →
    argOff + 8 * sig.length ≤ r.allocPos →
    (blobsSpace args ≤ r.allocCap → ∃ r' outs, readArgs sig.length r sigPos argOff acc = some (.done r' (acc ++ outs)) ∧
      r'.pos = r.pos + (args.flatMap encodeArg).length ∧ List.Forall₂ (Denotes r.src) outs args) ∧
    (r.allocCap < blobsSpace args → readArgs sig.length r sigPos argOff acc = some .noSpace) := by
  induction ht with
  | nil =>
    intro r rest tail sigPos argOff acc _ _ _ _ _ _
    exact ⟨fun _ => ⟨r, [], by simp [readArgs], by simp, .nil⟩, fun h => by simp [blobsSpace] at h⟩
  | @cons c a sig args hca hs ih =>
    intro r rest tail sigPos argOff acc hr hcap hsig hal hsz hoff
    simp only [List.flatMap_cons, List.append_assoc] at hr
    simp only [List.map_cons, List.cons_append] at hsig
    simp only [List.length_cons] at hoff
    simp only [blobsSpace, List.map_cons, List.sum_cons, List.length_cons, readArgs, getElem?_of_drop hsig]
    by_cases hb : blobSpace a ≤ r.allocCap
    · obtain ⟨r', o, he, hr', hsrc, hpos, hc', haddr, hsize, hap, hac, hden⟩ := readArg_eq hca hr hcap hal hsz hb
      have hb8 : (r'.allocAddr + r'.allocPos) % 8 = 0 := by
        rw [haddr, hap]; cases a <;> simp only [blobSpace] at * <;> omega
      have hbs : r'.allocPos + r'.allocCap ≤ r'.allocSize := by rw [hsize, hap, hac]; omega
      have IH := ih r' rest tail (sigPos + 1) (argOff + 8) (acc ++ [o]) hr' (by omega)
        (by rw [hsrc]; exact drop_succ_of_drop hsig) hb8 hbs (by omega)
      have hn : ¬ (o ≠ OutArg.none ∧ argOff + 8 > r.allocSize) := by
        intro h; omega
      simp only [he, hn, if_false]
      refine ⟨fun h => ?_, fun h => ?_⟩
      · have h5 : blobsSpace args ≤ r'.allocCap := by rw [hac]; unfold blobsSpace; clear IH hb8; omega
        obtain ⟨r2, outs, h1, h2, h3⟩ := IH.1 h5
        clear IH hb8
        refine ⟨r2, o :: outs, by rw [h1]; simp, by rw [h2, hpos]; simp; omega, .cons hden (by rw [← hsrc]; exact h3)⟩
      · have h5 : r'.allocCap < blobsSpace args := by rw [hac]; unfold blobsSpace; clear IH hb8; omega
        exact IH.2 h5
    · refine ⟨fun h => by omega, fun _ => ?_⟩
      simp only [readArg_noSpace hca hal (by omega : r.allocCap < blobSpace a)]

end Verif.Osc
