import Verif.Proofs.Chat
import Verif.Props.Codec
import Verif.Props.Table
/-! # Properties C124, C125: the chat program -/
namespace Noise
namespace Chat
open Spec Spec.Chat

/-! ## The codec -/

theorem regs_eq (o : List (GoType × Decoder)) : ∃ l, validRegs ((chatType, decoder) :: o) = (chatType, decoder) :: l ∧ l.length ≤ o.length := by
  rw [validRegs_eq]
  have : ∀ (h acc : List (GoType × Decoder)), ∃ l, accepted acc h = acc ++ l ∧ l.length ≤ h.length := by
    intro h
    induction h with
    | nil => intro acc; exact ⟨[], by simp [accepted]⟩
    | cons x h ih =>
      intro acc
      obtain ⟨t, d⟩ := x
      rw [accepted]
      split
      · obtain ⟨l, h1, h2⟩ := ih (acc ++ [(t, d)])
        exact ⟨(t, d) :: l, by rw [h1]; simp, by simp; omega⟩
      · obtain ⟨l, h1, h2⟩ := ih acc
        exact ⟨l, h1, by simp; omega⟩
  obtain ⟨l, h1, h2⟩ := this o [(chatType, decoder)]
  refine ⟨l, ?_, h2⟩
  rw [accepted, if_pos ⟨rfl, by simp⟩]
  exact h1

/-- The opcode of chat messages is 0. -/
theorem codec_encode (o : List (GoType × Decoder)) (m : Bytes) : (codec o).encode (message m) = .ok (0 :: 0 :: m) := by
  obtain ⟨l, hl, -⟩ := regs_eq o
  exact encode_registered (i := 0) (n := 0) (d := decoder) (codecInv_after _) (by rw [hl]; rfl) (message m) (.inl rfl)

theorem codec_decode (o : List (GoType × Decoder)) (ho : o.length < 65536) (m : Bytes) : (codec o).decode (0 :: 0 :: m) = .ok (message (toValid m)) := by
  obtain ⟨l, hl, hle⟩ := regs_eq o
  have h := (codecInv_after ((chatType, decoder) :: o)).de 0 chatType decoder (by rw [hl]; rfl) (by rw [hl, List.length_cons]; omega)
  have e := decode_encoded (c := codecAfter ((chatType, decoder) :: o)) (UInt16.ofNat 0) m
  rw [h] at e
  exact e

/-- Nothing else decodes to a chat message. -/
theorem codec_decode_inv (o : List (GoType × Decoder)) (ho : o.length < 65536) {data : Bytes} {v : Val} (h : (codec o).decode data = .ok v) (hv : v.ty = chatType) :
    ∃ m, data = 0 :: 0 :: m ∧ v = message (toValid m) := by
  obtain ⟨l, hl, hle⟩ := regs_eq o
  have inv := codecInv_after ((chatType, decoder) :: o)
  match data, h with
  | [], h => simp [Codec.decode] at h
  | [_], h => simp [Codec.decode] at h
  | b0 :: b1 :: m, h =>
    have ht : put16 (b1.toUInt16 ||| (b0.toUInt16 <<< 8)) = (b0 :: b1 :: m).take 2 := by
      refine put16_of_take (by simp) ?_
      rw [get16_val]; simp [beVal]; omega
    have e := decode_encoded (c := codecAfter ((chatType, decoder) :: o)) (b1.toUInt16 ||| (b0.toUInt16 <<< 8)) m
    rw [ht] at e
    rw [show codec o = codecAfter ((chatType, decoder) :: o) from rfl, show b0 :: b1 :: m = (b0 :: b1 :: m).take 2 ++ m from rfl, e] at h
    generalize b1.toUInt16 ||| (b0.toUInt16 <<< 8) = op at h ht
    split at h
    · cases h
    · rename_i d hd
      by_cases hop : op.toNat < (validRegs ((chatType, decoder) :: o)).length
      · obtain ⟨x, hx⟩ : ∃ x, (validRegs ((chatType, decoder) :: o))[op.toNat]? = some x := ⟨_, List.getElem?_eq_getElem hop⟩
        have h1 := inv.de op.toNat x.1 x.2 hx (by rw [hl, List.length_cons]; omega)
        rw [show UInt16.ofNat op.toNat = op by simp, hd] at h1
        obtain rfl := Option.some.inj h1
        have h2 := x.2.typed m v h
        have h3 : x.2.ret = some x.1 := by
          have := accepted_typed [] ((chatType, decoder) :: o) (by simp)
          rw [← validRegs_eq] at this
          exact this x (List.mem_of_getElem? hx)
        rw [h3, hv] at h2
        have h4 : op.toNat = 0 := by
          have hn := inv.nodup
          rw [List.nodup_iff_getElem?_ne_getElem?] at hn
          by_contra hne
          refine hn 0 op.toNat (by omega) (by simpa using hop) ?_
          rw [List.getElem?_map, List.getElem?_map, hx, hl]
          simp [← Option.some.inj h2]
        obtain rfl : op = 0 := UInt16.toNat_inj.1 h4
        rw [hl] at hx
        obtain rfl := Option.some.inj hx
        have h5 : b0 = 0 ∧ b1 = 0 := by
          have : put16 0 = [0, 0] := by decide
          rw [this] at ht
          simpa [eq_comm] using ht
        obtain ⟨rfl, rfl⟩ := h5
        exact ⟨m, rfl, (Res.ok.inj h).symm⟩
      · rw [inv.de_none op (by omega)] at hd
        cases hd

theorem line_eq (e : ID) (m : Bytes) : line e m = said e m ++ [10] := by simp [line, said, hexEncode, printedLength]

theorem handle_chat (o : List (GoType × Decoder)) (ho : o.length < 65536) (e : ID) (m : Bytes) :
    handle (codec o) false e (0 :: 0 :: m) = if toValid m = [] then [] else said e (toValid m) ++ [10] := by
  simp only [handle, codec_decode o ho]
  by_cases h : toValid m = []
  · simp [h, message]
  · simp [h, message, line_eq]

theorem handle_cases (o : List (GoType × Decoder)) (ho : o.length < 65536) (q : Bool) (e : ID) (data : Bytes) :
    handle (codec o) q e data = [] ∨ ∃ m, q = false ∧ data = 0 :: 0 :: m ∧ toValid m ≠ [] ∧ handle (codec o) q e data = said e (toValid m) ++ [10] := by
  cases q with
  | true => exact .inl rfl
  | false =>
    cases hd : (codec o).decode data with
    | ok v =>
      by_cases hv : v.ty = chatType
      · obtain ⟨m, rfl, -⟩ := codec_decode_inv o ho hd hv
        rw [handle_chat o ho]
        by_cases h : toValid m = []
        · rw [if_pos h]; exact .inl rfl
        · rw [if_neg h]; exact .inr ⟨m, rfl, rfl, h, rfl⟩
      · left; simp [handle, hd, hv]
    | err x => left; simp [handle, hd]
    | panic => left; simp [handle, hd]

/-! ## Characters and bytes -/

/-- An ASCII byte occurs in the encoding of its own character only. -/
theorem mem_encode {b : UInt8} {c : Char} (hb : b.toNat < 128) : b ∈ String.utf8EncodeChar c ↔ c.val.toNat = b.toNat := by
  have hv : c.val.toNat < 0xd800 ∨ (0xdfff < c.val.toNat ∧ c.val.toNat < 0x110000) := c.valid
  have hof : ∀ n, n < 256 → (b = UInt8.ofNat n ↔ b.toNat = n) := fun n hn => by
    rw [← UInt8.toNat_inj, UInt8.toNat_ofNat_of_lt' (by simpa using hn)]
  unfold String.utf8EncodeChar
  generalize c.val.toNat = v at hv
  dsimp only
  split
  · rw [List.mem_singleton, hof _ (by omega)]; omega
  · split
    · simp only [List.mem_cons, List.not_mem_nil, or_false, hof _ (show v / 64 % 0x20 + 0xc0 < 256 by omega), hof _ (show v % 0x40 + 0x80 < 256 by omega)]; omega
    · split
      · simp only [List.mem_cons, List.not_mem_nil, or_false, hof _ (show v / 4096 % 0x10 + 0xe0 < 256 by omega), hof _ (show v / 64 % 0x40 + 0x80 < 256 by omega), hof _ (show v % 0x40 + 0x80 < 256 by omega)]; omega
      · simp only [List.mem_cons, List.not_mem_nil, or_false, hof _ (show v / 262144 % 0x08 + 0xf0 < 256 by omega), hof _ (show v / 4096 % 0x40 + 0x80 < 256 by omega), hof _ (show v / 64 % 0x40 + 0x80 < 256 by omega), hof _ (show v % 0x40 + 0x80 < 256 by omega)]; omega

theorem char_eq {c d : Char} (h : c.val.toNat = d.val.toNat) : c = d := Char.ext (UInt32.toNat_inj.1 h)

theorem mem_utf8 {b : UInt8} {d : Char} (hb : b.toNat < 128) (hd : d.val.toNat = b.toNat) (t : Text) : b ∈ utf8 t ↔ d ∈ t := by
  unfold utf8
  rw [List.mem_flatMap]
  constructor
  · rintro ⟨c, hc, h⟩
    rw [mem_encode hb] at h
    rwa [← char_eq (h.trans hd.symm)]
  · exact fun h => ⟨d, h, (mem_encode hb).2 hd⟩

theorem utf8_append (t u : Text) : utf8 (t ++ u) = utf8 t ++ utf8 u := by simp [utf8]

theorem utf8_eq_nil {t : Text} : utf8 t = [] ↔ t = [] := by
  constructor
  · intro h
    cases t with
    | nil => rfl
    | cons c t =>
      simp only [utf8, List.flatMap_cons, List.append_eq_nil_iff] at h
      exact absurd h.1 (encode_ne_nil c)
  · rintro rfl; rfl

theorem utf8_lf (t : Text) : 10 ∈ utf8 t ↔ '\n' ∈ t := mem_utf8 (by decide) rfl t

theorem utf8_getLast {t : Text} (h : (utf8 t).getLast? = some 13) : t.getLast? = some '\r' := by
  rcases List.eq_nil_or_concat t with rfl | ⟨u, c, rfl⟩
  · simp [utf8] at h
  · rw [List.concat_eq_append, utf8_append] at h
    have e : utf8 [c] = String.utf8EncodeChar c := by simp [utf8]
    rw [e, List.getLast?_append_of_ne_nil _ (encode_ne_nil c)] at h
    have := (mem_encode (b := 13) (by decide)).1 (List.mem_of_getLast? h)
    rw [List.concat_eq_append, List.getLast?_concat, char_eq (c := c) (d := '\r') (by rw [this]; rfl)]

theorem utf8_slash {t : Text} (h : (utf8 ['/']).isPrefixOf (utf8 t) = true) : t.head? = some '/' := by
  cases t with
  | nil => simp [utf8, String.utf8EncodeChar] at h
  | cons c t =>
    rw [List.isPrefixOf_iff_prefix] at h
    have e : utf8 (c :: t) = String.utf8EncodeChar c ++ utf8 t := by simp [utf8]
    have hne := encode_ne_nil c
    have hm : (47 : UInt8) ∈ String.utf8EncodeChar c := by
      rw [e] at h
      cases hl : String.utf8EncodeChar c with
      | nil => exact absurd hl hne
      | cons b r =>
        rw [hl] at h
        obtain ⟨x, hx⟩ := h
        have : utf8 ['/'] = [47] := by decide
        rw [this] at hx
        simp at hx
        simp [hx.1]
    have := (mem_encode (b := 47) (by decide)).1 hm
    rw [List.head?_cons, char_eq (c := c) (d := '/') (by rw [this]; rfl)]

theorem chat_text (o : List (GoType × Decoder)) (ps : List ID) (l : Bytes) (h : (utf8 ['/']).isPrefixOf l = false) :
    chat (codec o) ps l = ps.map fun p => .send p.address (0 :: 0 :: l) := by
  unfold chat
  rw [if_neg (by rintro rfl; revert h; decide), if_neg (by rintro rfl; revert h; decide), if_neg (by simp [h])]
  simp only [codec_encode]
  induction ps with
  | nil => rfl
  | cons p ps ih => rw [List.flatMap_cons, List.map_cons, ih]; rfl

theorem not_slash {t : Text} (h : t.head? ≠ some '/') : (utf8 ['/']).isPrefixOf (utf8 t) = false := by
  rw [Bool.eq_false_iff]
  exact fun e => h (utf8_slash e)

theorem typing_text (ls : List (Text × Eol)) (h : ∀ x ∈ ls, '\n' ∉ x.1 ∧ x.1.getLast? ≠ some '\r' ∧ (utf8 x.1).length ≤ 4096) :
    input (typing (ls.map fun x => (utf8 x.1, x.2))) = ((ls.map Prod.fst).filter (· ≠ [])).map utf8 := by
  rw [input_typing]
  · induction ls with
    | nil => rfl
    | cons x ls ih =>
      have := ih fun y hy => h y (by simp [hy])
      by_cases hx : x.1 = []
      · simpa [hx, show utf8 [] = [] from rfl] using this
      · have hx' : utf8 x.1 ≠ [] := fun e => hx (utf8_eq_nil.1 e)
        simpa [hx, hx'] using this
  · intro y hy
    obtain ⟨x, hx, rfl⟩ := List.mem_map.1 hy
    obtain ⟨h1, h2, h3⟩ := h x hx
    exact ⟨fun e => h1 ((utf8_lf _).1 e), fun e => h2 (utf8_getLast e), h3⟩

end Chat
open Spec Spec.Chat Chat

/-! ## C124 -/

/-- Lines of up to 4096 bytes that are not commands. For every nonempty one, in order, one message goes to every peer that `Peers()` lists at the time; and a peer that runs the program prints on account of it one line with exactly what was typed.
`overlay`, `overlay'` are what the programs register besides. What is missing: longer lines (`C124_long_line_refuted`, `C124_cut_character_refuted`) and peers that `Peers()` does not list (`C124_sixteen_refuted`). -/
theorem C124_typed_lines_partial (overlay : List (GoType × Decoder)) (peersAt : Nat → List ID) (ls : List (Text × Eol))
    (h : ∀ x ∈ ls, '\n' ∉ x.1 ∧ x.1.getLast? ≠ some '\r' ∧ (utf8 x.1).length ≤ 4096 ∧ x.1.head? ≠ some '/') :
    ∃ data : Text → Bytes,
      program (codec overlay) peersAt (typing (ls.map fun x => (utf8 x.1, x.2))) =
        ((ls.map Prod.fst).filter (· ≠ [])).zipIdx.flatMap (fun x => (peersAt x.2).map fun p => .send p.address (data x.1)) ∧
      ∀ overlay' : List (GoType × Decoder), overlay'.length < 65536 → ∀ (sender : ID) (t : Text), t ≠ [] →
        handle (codec overlay') false sender (data t) = said sender (utf8 t) ++ [10] := by
  refine ⟨fun t => 0 :: 0 :: utf8 t, ?_, ?_⟩
  · unfold program
    rw [typing_text ls fun x hx => ⟨(h x hx).1, (h x hx).2.1, (h x hx).2.2.1⟩]
    have hh : ∀ t ∈ (ls.map Prod.fst).filter (· ≠ []), t.head? ≠ some '/' := by
      intro t ht
      obtain ⟨x, hx, rfl⟩ := List.mem_map.1 (List.mem_of_mem_filter ht)
      exact (h x hx).2.2.2
    generalize (ls.map Prod.fst).filter (· ≠ []) = ts at hh
    rw [List.zipIdx_map, List.flatMap_map]
    apply List.flatMap_congr
    intro x hx
    exact chat_text overlay _ _ (not_slash (hh _ (List.fst_mem_of_mem_zipIdx hx)))
  · intro o' ho' sender t ht
    rw [handle_chat o' ho', toValid_utf8, if_neg (fun e => ht (utf8_eq_nil.1 e))]

/-- A line that begins with a slash is not sent to anybody. -/
theorem C124_commands_stay (overlay : List (GoType × Decoder)) (peersAt : Nat → List ID) (t : Text) (e : Eol) (h : '\n' ∉ t ∧ t.getLast? ≠ some '\r' ∧ (utf8 t).length ≤ 4096) (h0 : t.head? = some '/') (address : Text) (data : Bytes) :
    .send address data ∉ program (codec overlay) peersAt (typing [(utf8 t, e)]) := by
  have h1 := typing_text [(t, e)] (by simpa using h)
  have hn : t ≠ [] := by rintro rfl; simp at h0
  simp only [List.map_cons, List.map_nil, List.filter_cons, List.filter_nil, hn, ne_eq, not_false_eq_true, decide_true, if_true] at h1
  have hp : (utf8 ['/']).isPrefixOf (utf8 t) = true := by
    obtain ⟨u, rfl⟩ : ∃ u, t = '/' :: u := by
      cases t with
      | nil => exact absurd rfl hn
      | cons c u => rw [List.head?_cons] at h0; exact ⟨u, by rw [Option.some.inj h0]⟩
    rw [List.isPrefixOf_iff_prefix]
    exact ⟨utf8 u, by simp [utf8]⟩
  unfold program
  rw [h1]
  simp only [List.zipIdx, List.flatMap_cons, List.flatMap_nil, List.append_nil]
  unfold chat
  rw [hp, if_pos rfl]
  split
  · simp
  · split <;> simp

/-- Whatever is typed: all bytes but the ends of lines are passed on, in order, in pieces of at most 4096 bytes that are not empty. -/
theorem C124_all_bytes_partial (stdin : Bytes) : (input stdin).flatten = joined stdin ∧ ∀ l ∈ input stdin, l ≠ [] ∧ 10 ∉ l ∧ l.length ≤ 4096 :=
  ⟨input_flatten stdin, input_mem stdin⟩

namespace Chat

theorem input_two {a b : Bytes} (ha : 10 ∉ a) (hl : a.length = bufSize) (h13 : a.getLast? ≠ some 13) (hb : 10 ∉ b) (hb13 : b.getLast? ≠ some 13) (hbl : b.length ≤ bufSize) (hbn : b ≠ []) (e : Eol) :
    input (a ++ b ++ e.bytes) = [a, b] := by
  have := bufSize_pos
  rw [List.append_assoc, input_step (readLine_full ha hl h13), if_neg (by rintro rfl; simp at hl; omega)]
  have h := input_line hb hb13 hbl e []
  rw [List.append_nil, if_neg hbn, input_nil] at h
  rw [h]

theorem program_two {c : Codec} {peersAt : Nat → List ID} {s a b : Bytes} (h : input s = [a, b]) : program c peersAt s = chat c (peersAt 0) a ++ chat c (peersAt 1) b := by
  unfold program
  rw [h]
  simp [List.zipIdx]

theorem utf8_replicate (n : Nat) : utf8 (List.replicate n 'a') = List.replicate n 97 := by
  induction n with
  | zero => rfl
  | succ n ih =>
    rw [List.replicate_succ, List.replicate_succ, ← ih]
    rfl

theorem rep_lf (n : Nat) : '\n' ∉ List.replicate n 'a' := by simp [List.mem_replicate]
theorem rep_last (n : Nat) : (List.replicate n 'a').getLast? ≠ some '\r' := by rw [List.getLast?_replicate]; split <;> decide
theorem rep_head (n : Nat) : (List.replicate n 'a').head? ≠ some '/' := by rw [List.head?_replicate]; split <;> decide
theorem rep_len (n : Nat) : (utf8 (List.replicate n 'a')).length = n := by rw [utf8_replicate, List.length_replicate]

theorem said_length (e : ID) (a : Bytes) : (said e a).length = (said e []).length + a.length := by simp [said]

theorem two_bytes {c : Char} (h : (utf8 [c]).length = 2) : ∃ b0 b1, String.utf8EncodeChar c = [b0, b1] ∧ 0xc0 ≤ b0.toNat ∧ 0x80 ≤ b1.toNat ∧ b1.toNat < 0xc0 := by
  have e : utf8 [c] = String.utf8EncodeChar c := by simp [utf8]
  rw [e] at h
  have hof : ∀ n, n < 256 → (UInt8.ofNat n).toNat = n := fun n hn => by simp; omega
  unfold String.utf8EncodeChar at h ⊢
  generalize c.val.toNat = v at h
  dsimp only at h ⊢
  split at h
  · simp at h
  · rename_i h1
    split at h
    · rename_i h2
      rw [if_neg h1, if_pos h2]
      exact ⟨_, _, rfl, by rw [hof _ (by omega)]; omega, by rw [hof _ (by omega)]; omega, by rw [hof _ (by omega)]; omega⟩
    · split at h <;> simp at h

theorem toValid_lead {b : UInt8} (h : 0x80 ≤ b.toNat) : toValid [b] = [] := by
  have : runeWidth [b] = none := by
    unfold runeWidth
    dsimp only
    rw [if_neg (by omega)]
    repeat' split
    all_goals rfl
  rw [toValid, toValidLoop, this]; rfl

theorem toValid_cont {b : UInt8} (h : 0x80 ≤ b.toNat) (h' : b.toNat < 0xc0) (r : Bytes) : toValid (b :: r) = toValid r := by
  have : runeWidth (b :: r) = none := by
    unfold runeWidth
    dsimp only
    rw [if_neg (by omega), if_neg (by omega), if_neg (by omega), if_neg (by omega)]
  rw [toValid, toValidLoop, this]; rfl

end Chat

/-- A line that is longer than 4096 bytes is taken for two. If its second part begins with a slash, it is not sent to anybody: it is taken for a command. The peers see the first part only, and cannot know. -/
theorem C124_long_line_refuted (overlay : List (GoType × Decoder)) (peersAt : Nat → List ID) (t u : Text) (e : Eol)
    (ht : (utf8 t).length = 4096 ∧ '\n' ∉ t ∧ t.getLast? ≠ some '\r' ∧ t.head? ≠ some '/')
    (hu : (utf8 u).length ≤ 4094 ∧ '\n' ∉ u ∧ u.getLast? ≠ some '\r') :
    ∃ data, program (codec overlay) peersAt (typing [(utf8 (t ++ '/' :: ' ' :: u), e)]) = (peersAt 0).map (fun p => .send p.address data) ++ [.help] ∧
      ∀ overlay' : List (GoType × Decoder), overlay'.length < 65536 → ∀ sender, handle (codec overlay') false sender data = said sender (utf8 t) ++ [10] := by
  have htn : utf8 t ≠ [] := fun h => by rw [h] at ht; simp at ht
  have e1 : utf8 ('/' :: ' ' :: u) = 47 :: 32 :: utf8 u := by simp [utf8, String.utf8EncodeChar]
  have hin := input_two (a := utf8 t) (b := 47 :: 32 :: utf8 u) (e := e) (fun h => ht.2.1 ((utf8_lf _).1 h)) ht.1 (fun h => ht.2.2.1 (utf8_getLast h)) ?_ ?_ (by simp [bufSize]; omega) (by simp)
  · refine ⟨0 :: 0 :: utf8 t, ?_, ?_⟩
    · have : typing [(utf8 (t ++ '/' :: ' ' :: u), e)] = utf8 t ++ 47 :: 32 :: utf8 u ++ e.bytes := by simp [typing, utf8_append, e1]
      rw [this, program_two hin, chat_text overlay _ _ (not_slash ht.2.2.2)]
      refine congrArg _ ?_
      unfold chat
      rw [if_neg, if_neg, if_pos]
      · rw [show utf8 ['/'] = [47] by decide]; rfl
      · rw [show utf8 "/peers".toList = [47, 112, 101, 101, 114, 115] by decide]; simp
      · rw [show utf8 "/discover".toList = [47, 100, 105, 115, 99, 111, 118, 101, 114] by decide]; simp
    · intro o' ho' sender
      rw [handle_chat o' ho', toValid_utf8, if_neg htn]
  · intro h
    rcases List.mem_cons.1 h with h | h
    · simp at h
    · rcases List.mem_cons.1 h with h | h
      · simp at h
      · exact hu.2.1 ((utf8_lf _).1 h)
  · cases hu' : utf8 u with
    | nil => simp
    | cons x xs => rw [List.getLast?_cons_cons, List.getLast?_cons_cons, ← hu']; exact fun h => hu.2.2 (utf8_getLast h)

/-- A character that does not fit into the first 4096 bytes of a line gets lost: its first byte is at the end of one message and its second at the beginning of another, and both are dropped by those who receive them. -/
theorem C124_cut_character_refuted (overlay : List (GoType × Decoder)) (peersAt : Nat → List ID) (t u : Text) (c : Char) (e : Eol)
    (ht : (utf8 t).length = 4095 ∧ '\n' ∉ t ∧ t.head? ≠ some '/') (hc : (utf8 [c]).length = 2)
    (hu : (utf8 u).length < 4096 ∧ '\n' ∉ u ∧ u.getLast? ≠ some '\r' ∧ u ≠ []) :
    ∃ data data', program (codec overlay) peersAt (typing [(utf8 (t ++ c :: u), e)]) =
        (peersAt 0).map (fun p => .send p.address data) ++ (peersAt 1).map (fun p => .send p.address data') ∧
      ∀ overlay' : List (GoType × Decoder), overlay'.length < 65536 → ∀ sender,
        handle (codec overlay') false sender data = said sender (utf8 t) ++ [10] ∧ handle (codec overlay') false sender data' = said sender (utf8 u) ++ [10] := by
  obtain ⟨b0, b1, hb, h0, h1, h2⟩ := two_bytes hc
  have htn : utf8 t ≠ [] := fun h => by rw [h] at ht; simp at ht
  have e1 : utf8 (t ++ c :: u) = (utf8 t ++ [b0]) ++ (b1 :: utf8 u) := by
    rw [utf8_append, show utf8 (c :: u) = String.utf8EncodeChar c ++ utf8 u by simp [utf8], hb]; simp
  have n10 : ∀ b : UInt8, 0x80 ≤ b.toNat → b ≠ 10 ∧ b ≠ 13 ∧ b ≠ 47 := fun b hb => ⟨by rintro rfl; simp at hb, by rintro rfl; simp at hb, by rintro rfl; simp at hb⟩
  have hin := input_two (a := utf8 t ++ [b0]) (b := b1 :: utf8 u) (e := e) ?_ (by simp [ht.1, bufSize]) ?_ ?_ ?_ (by simp [bufSize]; omega) (by simp)
  · refine ⟨0 :: 0 :: (utf8 t ++ [b0]), 0 :: 0 :: b1 :: utf8 u, ?_, ?_⟩
    · have : typing [(utf8 (t ++ c :: u), e)] = utf8 t ++ [b0] ++ b1 :: utf8 u ++ e.bytes := by simp [typing, e1]
      rw [this, program_two hin, chat_text, chat_text]
      · rw [Bool.eq_false_iff, ne_eq, List.isPrefixOf_iff_prefix]
        rintro ⟨x, hx⟩
        rw [show utf8 ['/'] = [47] by decide] at hx
        simp at hx
        exact (n10 b1 h1).2.2 hx.1.symm
      · rw [Bool.eq_false_iff]
        intro h
        refine ht.2.2 (utf8_slash ?_)
        rw [List.isPrefixOf_iff_prefix] at h ⊢
        rw [show utf8 ['/'] = [47] by decide] at h ⊢
        obtain ⟨x, hx⟩ := h
        cases hu' : utf8 t with
        | nil => exact absurd hu' htn
        | cons y ys => rw [hu'] at hx; simp at hx; exact ⟨ys, by simp [hx.1]⟩
    · intro o' ho' sender
      rw [handle_chat o' ho', handle_chat o' ho', toValid_utf8_append, toValid_lead (by omega), toValid_cont h1 h2, toValid_utf8, List.append_nil,
        if_neg htn, if_neg (fun h => hu.2.2.2 (utf8_eq_nil.1 h))]
      exact ⟨rfl, rfl⟩
  · intro h
    rcases List.mem_append.1 h with h | h
    · exact ht.2.1 ((utf8_lf _).1 h)
    · exact (n10 b0 (by omega)).1 (by simpa using h : (10 : UInt8) = b0).symm
  · rw [List.getLast?_concat]; exact fun h => (n10 b0 (by omega)).2.1 (by simpa using h)
  · intro h
    rcases List.mem_cons.1 h with h | h
    · exact (n10 b1 h1).1 h.symm
    · exact hu.2.1 ((utf8_lf _).1 h)
  · rw [show b1 :: utf8 u = [b1] ++ utf8 u from rfl, List.getLast?_append_of_ne_nil _ (fun h => hu.2.2.2 (utf8_eq_nil.1 h))]
    exact fun h => hu.2.2.1 (utf8_getLast h)

theorem Chat.unseen (t : Text) (ht : (utf8 t).length = 4096 ∧ '\n' ∉ t ∧ t.getLast? ≠ some '\r' ∧ t.head? ≠ some '/') (overlay overlay' : List (GoType × Decoder)) (peersAt : Nat → List ID) (e : Eol)
    (ho' : overlay'.length < 65536) (address : Text) (data : Bytes) (sender : ID) (hm : .send address data ∈ program (codec overlay) peersAt (typing [(utf8 (t ++ ['/', ' ']), e)])) :
    handle (codec overlay') false sender data ≠ said sender (utf8 (t ++ ['/', ' '])) ++ [10] := by
  obtain ⟨d, h1, h2⟩ := C124_long_line_refuted overlay peersAt t [] e ht (by decide)
  rw [h1] at hm
  have : data = d := by
    rcases List.mem_append.1 hm with h | h
    · obtain ⟨p, -, hp⟩ := List.mem_map.1 h
      injection hp with _ hp; exact hp.symm
    · simp at h
  rw [this, h2 overlay' ho' sender, utf8_append]
  intro h
  have := congrArg List.length h
  rw [List.length_append, List.length_append, said_length, said_length sender (_ ++ _), List.length_append, show (utf8 ['/', ' ']).length = 2 by decide] at this
  omega

/-- There are lines that no peer gets to see as they were typed. -/
theorem C124_witness : ∃ line : Text, '\n' ∉ line ∧ line.head? = some 'a' ∧ ∀ (overlay overlay' : List (GoType × Decoder)) (peersAt : Nat → List ID) (e : Eol), overlay'.length < 65536 →
    ∀ address data sender, .send address data ∈ program (codec overlay) peersAt (typing [(utf8 line, e)]) →
      handle (codec overlay') false sender data ≠ said sender (utf8 line) ++ [10] := by
  refine ⟨List.replicate 4096 'a' ++ ['/', ' '], ?_, rfl, ?_⟩
  · intro h
    rcases List.mem_append.1 h with h | h
    · exact rep_lf _ h
    · revert h; decide
  · exact fun o o' peersAt e ho' address data sender hm => unseen _ ⟨rep_len _, rep_lf _, rep_last _, rep_head _⟩ o o' peersAt e ho' address data sender hm

/-- `C124_cut_character_refuted` is not vacuous. -/
example : (utf8 (List.replicate 4095 'a')).length = 4095 ∧ '\n' ∉ List.replicate 4095 'a' ∧ (utf8 ['é']).length = 2 ∧ (utf8 "tait".toList).length < 4096 := by
  refine ⟨rep_len _, rep_lf _, by decide, by decide⟩

/-- `C124_typed_lines_partial` is not vacuous: three lines, one of them empty, and what becomes of them. -/
example : program (codec []) (fun _ => [newID (keyOf [1]) [127, 0, 0, 1] 9000]) (typing [(utf8 "hé".toList, .lf), ([], .lf), (utf8 "there".toList, .crlf)]) =
    [.send ":9000".toList [0, 0, 104, 195, 169], .send ":9000".toList [0, 0, 116, 104, 101, 114, 101]] := by decide +kernel

/-! ### Who gets to see it -/

theorem Chat.send_mem {c : Codec} {ps : List ID} {stdin : Bytes} {a : Text} {d : Bytes} (h : .send a d ∈ program c (fun _ => ps) stdin) : ∃ p ∈ ps, p.address = a := by
  unfold program at h
  obtain ⟨x, -, hx⟩ := List.mem_flatMap.1 h
  unfold chat at hx
  split at hx
  · simp at hx
  · split at hx
    · simp at hx
    · split at hx
      · simp at hx
      · obtain ⟨p, hp, hx⟩ := List.mem_flatMap.1 hx
        split at hx
        · simp at hx; exact ⟨p, hp, hx.1.symm⟩
        · simp at hx

/-- With more than 16 peers in its table, the program sends to 16 of them only, the ones that are closest in terms of the XOR metric; others do not get to see anything that is typed. (Addresses are assumed distinct, since a message is sent
to an address.) -/
theorem C124_sixteen_refuted (S : Sorter) (overlay : List (GoType × Decoder)) (self : ID) (t : Table) (ht : Table.Reachable self t) (hn : 16 < (t.all.filter fun e => e.id ≠ self.id).length)
    (ha : ∀ x ∈ t.all, ∀ y ∈ t.all, x.address = y.address → x = y) :
    ∃ ps, t.peers S = .ok ps ∧ ∃ y ∈ t.all, y.id ≠ self.id ∧ ∀ stdin data, .send y.address data ∉ program (codec overlay) (fun _ => ps) stdin := by
  obtain ⟨h, hs⟩ := ht.inv
  obtain ⟨ps, h1, h2, h3, -, h5⟩ := C51_find_closest S self t ht self.id 16
  refine ⟨ps, by rw [Table.peers, hs]; exact h1, ?_⟩
  have hnd : (t.all.filter fun e => decide (e.id ≠ self.id)).Nodup := h.all_nodup.of_map.filter _
  have : ∃ y ∈ t.all.filter fun e => decide (e.id ≠ self.id), y ∉ ps := by
    by_contra hc
    have hsub : (t.all.filter fun e => decide (e.id ≠ self.id)) ⊆ ps := fun y hy => by
      by_contra hy'; exact hc ⟨y, hy, hy'⟩
    have := (List.subperm_of_subset hnd hsub).length_le
    omega
  obtain ⟨y, hy, hyp⟩ := this
  have hy' := List.mem_filter.1 hy
  refine ⟨y, hy'.1, by simpa using hy'.2, fun stdin data hm => ?_⟩
  obtain ⟨p, hp, e⟩ := send_mem hm
  exact hyp (ha p (h3 p hp).1 y hy'.1 e ▸ hp)

/-- With at most 16, all of them are listed. -/
theorem C124_small_table_partial (S : Sorter) (self : ID) (t : Table) (ht : Table.Reachable self t) (hn : (t.all.filter fun e => e.id ≠ self.id).length ≤ 16) :
    ∃ ps, t.peers S = .ok ps ∧ (ps.map ID.id).Nodup ∧ ∀ y, y ∈ ps ↔ y ∈ t.all ∧ y.id ≠ self.id := by
  obtain ⟨h, hs⟩ := ht.inv
  obtain ⟨ps, h1, h2, h3, -, h5⟩ := C51_find_closest S self t ht self.id 16
  refine ⟨ps, by rw [Table.peers, hs]; exact h1, h2, fun y => ⟨h3 y, fun hy => ?_⟩⟩
  have hsub : ps ⊆ t.all.filter fun e => decide (e.id ≠ self.id) := fun x hx => List.mem_filter.2 ⟨(h3 x hx).1, by simpa using (h3 x hx).2⟩
  have hp := (List.subperm_of_subset h2.of_map hsub).perm_of_length_le (by rw [h5]; omega)
  exact hp.mem_iff.2 (List.mem_filter.2 ⟨hy.1, by simpa using hy.2⟩)

/-- A table with 17 peers: 16 far ones and a near one. -/
def Chat.table17 : Table := List.foldl Table.apply ((newTable (newID (keyOf [0x80]) [] 1)).getD ⟨fun _ => [], ID.zero, 0⟩)
  (((List.range 16).map fun i => TableOp.update (newID (keyOf [UInt8.ofNat (i + 1)]) [] (UInt16.ofNat (i + 2)))) ++ [.update (newID (keyOf [0xc0]) [] 100)])

/-- `C124_sixteen_refuted` is not vacuous. -/
example : Table.Reachable (newID (keyOf [0x80]) [] 1) table17 ∧ 16 < (table17.all.filter fun e => e.id ≠ (newID (keyOf [0x80]) [] 1).id).length ∧
    ∀ x ∈ table17.all, ∀ y ∈ table17.all, x.address = y.address → x = y := by
  refine ⟨⟨_, _, rfl, rfl⟩, by decide +kernel, by decide +kernel⟩

/-! ## C125 -/

namespace Chat

theorem toValidLoop_sublist : ∀ (s : Bytes) (k : Nat), (toValidLoop k s).Sublist s := by
  intro s
  induction s with
  | nil => intro k; cases k <;> exact List.Sublist.refl _
  | cons b r ih =>
    intro k
    cases k with
    | succ k => rw [toValidLoop]; exact (ih k).cons_cons b
    | zero =>
      rw [toValidLoop]
      split
      · exact (ih _).cons_cons b
      · exact (ih _).cons b

theorem said_lf (k : PublicKey) (h : IP) (p : UInt16) {w : Bytes} (hw : 10 ∉ w) : 10 ∉ said (newID k h p) w := by
  unfold said
  intro hm
  rcases List.mem_append.1 hm with hm | hm
  · have := (utf8_lf _).1 hm
    rw [List.mem_append, List.mem_append, List.mem_append] at this
    rcases this with ((h1 | h1) | h1) | h1
    · have := address_chars k h p _ h1
      revert this; unfold AddrChar; decide
    · revert h1; decide
    · have := hex_chars _ _ (List.mem_of_mem_take h1)
      revert this; unfold IsHexDigit; decide
    · revert h1; decide
  · exact hw hm

theorem isLine_mem {L : List Bytes} (hL : ∀ x ∈ L, 10 ∉ x) {l : Bytes} (h : IsLine l (L.flatMap (· ++ [10]))) : l ∈ L := by
  induction L with
  | nil =>
    obtain ⟨-, b, a, e, -⟩ := h
    simp at e
  | cons x L ih =>
    obtain ⟨h10, b, a, e, hb⟩ := h
    have hx := hL x (by simp)
    rw [List.flatMap_cons, List.append_assoc, List.singleton_append] at e
    rcases hb with rfl | ⟨b, rfl⟩
    · rw [List.nil_append] at e
      rw [(append_lf_inj e hx h10).1]; simp
    · have e' : x ++ 10 :: L.flatMap (· ++ [10]) = b ++ 10 :: (l ++ 10 :: a) := by rw [e]; simp
      refine List.mem_cons_of_mem _ (ih (fun y hy => hL y (by simp [hy])) ⟨h10, ?_⟩)
      by_cases hb : (10 : UInt8) ∈ b
      · obtain ⟨b1, b2, rfl, hb1⟩ := List.eq_append_cons_of_mem hb
        rw [List.append_assoc, List.cons_append] at e'
        have := (append_lf_inj e' hx hb1).2
        exact ⟨b2 ++ [10], a, by rw [this]; simp, .inr ⟨b2, rfl⟩⟩
      · have := (append_lf_inj e' hx hb).2
        exact ⟨[], a, by rw [this]; simp, .inl rfl⟩

end Chat

/-- Anybody can make it look as if somebody else had said something: one message of the attacker's prints the same as a message of the attacker's and one of the victim's. -/
theorem C125_forged_line_refuted (overlay : List (GoType × Decoder)) (ho : overlay.length < 65536) (attacker victim : ID) (t u : Text) :
    ∃ data, shown (codec overlay) [(false, attacker, data)] = said attacker (utf8 t) ++ [10] ++ (said victim (utf8 u) ++ [10]) := by
  refine ⟨0 :: 0 :: utf8 (t ++ ['\n'] ++ (victim.address ++ ['('] ++ (hex victim.id.1).take 8 ++ [')', '>', ' ']) ++ u), ?_⟩
  rw [shown, List.flatMap_cons, List.flatMap_nil, List.append_nil]
  simp only
  rw [handle_chat overlay ho, toValid_utf8, if_neg (by rw [utf8_eq_nil]; simp)]
  simp only [said, utf8_append, show utf8 ['\n'] = [10] by decide, List.append_assoc]

/-- If no message contains a line feed, every line on the terminal shows what the one who is named has sent, or as much of it as is valid text; messages are attributed correctly, and whatever is sent, what is printed is valid text. `x.1`: it is a request; `x.2.1`: the peer, as authenticated
(C30); `x.2.2`: the data. What is missing: messages with line feeds (`C125_forged_line_refuted`). -/
theorem C125_attribution_partial (overlay : List (GoType × Decoder)) (ho : overlay.length < 65536) (l : List (Bool × ID × Bytes))
    (hl : ∀ x ∈ l, (∃ k h p, x.2.1 = newID k h p) ∧ 10 ∉ x.2.2.drop 2) (line : Bytes) (h : IsLine line (shown (codec overlay) l)) :
    ∃ x ∈ l, x.1 = false ∧ ∃ what : Text, what ≠ [] ∧ (utf8 what).Sublist (x.2.2.drop 2) ∧ line = said x.2.1 (utf8 what) := by
  have key : ∃ L : List Bytes, shown (codec overlay) l = L.flatMap (· ++ [10]) ∧ ∀ y ∈ L, 10 ∉ y ∧ ∃ x ∈ l, x.1 = false ∧ ∃ what : Text, what ≠ [] ∧ (utf8 what).Sublist (x.2.2.drop 2) ∧ y = said x.2.1 (utf8 what) := by
    clear h
    induction l with
    | nil => exact ⟨[], rfl, by simp⟩
    | cons x l ih =>
      obtain ⟨L, h1, h2⟩ := ih fun y hy => hl y (by simp [hy])
      have h2' : ∀ y ∈ L, 10 ∉ y ∧ ∃ z ∈ x :: l, z.1 = false ∧ ∃ what : Text, what ≠ [] ∧ (utf8 what).Sublist (z.2.2.drop 2) ∧ y = said z.2.1 (utf8 what) := fun y hy => by
        obtain ⟨a, z, hz, b⟩ := h2 y hy
        exact ⟨a, z, by simp [hz], b⟩
      obtain ⟨q, e, d⟩ := x
      have hs : shown (codec overlay) ((q, e, d) :: l) = handle (codec overlay) q e d ++ shown (codec overlay) l := by simp [shown]
      obtain ⟨⟨k, hh, p, he⟩, h10⟩ := hl (q, e, d) (by simp)
      simp only at he h10
      rcases handle_cases overlay ho q e d with hd | ⟨m, hq, hdm, hne, hd⟩
      · exact ⟨L, by rw [hs, hd, h1]; rfl, h2'⟩
      · refine ⟨said e (toValid m) :: L, by rw [hs, hd, h1]; rfl, ?_⟩
        intro y hy
        rcases List.mem_cons.1 hy with rfl | hy
        · have hsub : (toValid m).Sublist (d.drop 2) := by rw [hdm]; exact toValidLoop_sublist m 0
          obtain ⟨t, ht⟩ := toValid_valid m
          rw [ht] at hsub hne ⊢
          refine ⟨?_, (q, e, d), by simp, hq, t, fun h => hne (utf8_eq_nil.2 h), hsub, rfl⟩
          rw [he]
          exact said_lf k hh p fun h => h10 (hsub.subset h)
        · exact h2' y hy
  obtain ⟨L, h1, h2⟩ := key
  rw [h1] at h
  exact (h2 line (isLine_mem (fun x hx => (h2 x hx).1) h)).2

/-- What the program sends contains no line feeds, whatever is typed: users of the program cannot forge anything. -/
theorem C125_program_sends_no_line_feeds (overlay : List (GoType × Decoder)) (peersAt : Nat → List ID) (stdin : Bytes) (address : Text) (data : Bytes)
    (h : .send address data ∈ program (codec overlay) peersAt stdin) : 10 ∉ data.drop 2 := by
  unfold program at h
  obtain ⟨x, hx, h⟩ := List.mem_flatMap.1 h
  have hl := (input_mem stdin _ (List.fst_mem_of_mem_zipIdx hx)).2.1
  unfold chat at h
  split at h
  · simp at h
  · split at h
    · simp at h
    · split at h
      · simp at h
      · obtain ⟨p, hp, h⟩ := List.mem_flatMap.1 h
        rw [codec_encode] at h
        simp at h
        rw [h.2]; exact hl

namespace Chat

theorem append_sep_inj {c : UInt8} {a b r q : Bytes} (h : a ++ c :: r = b ++ c :: q) (ha : c ∉ a) (hb : c ∉ b) : a = b ∧ r = q := by
  induction a generalizing b with
  | nil => cases b with
    | nil => simpa using h
    | cons d b => simp at h; exact absurd h.1 (fun e => hb (by simp [e]))
  | cons d a ih => cases b with
    | nil => simp at h; exact absurd h.1 (fun e => ha (by simp [e]))
    | cons d' b =>
      simp at h ha hb
      obtain ⟨h1, h2⟩ := ih h.2 ha.2 hb.2
      exact ⟨by rw [h.1, h1], h2⟩

theorem utf8_ascii {t : Text} (h : ∀ c ∈ t, c.val.toNat < 128) : utf8 t = t.map fun c => UInt8.ofNat c.val.toNat := by
  induction t with
  | nil => rfl
  | cons c t ih =>
    have e : String.utf8EncodeChar c = [UInt8.ofNat c.val.toNat] := by
      have := h c (by simp)
      unfold String.utf8EncodeChar
      dsimp only
      rw [if_pos (by omega)]
    rw [show utf8 (c :: t) = String.utf8EncodeChar c ++ utf8 t by simp [utf8], e, ih fun d hd => h d (by simp [hd])]
    rfl

theorem ascii_inj {t u : Text} (ht : ∀ c ∈ t, c.val.toNat < 128) (hu : ∀ c ∈ u, c.val.toNat < 128) (h : utf8 t = utf8 u) : t = u := by
  rw [utf8_ascii ht, utf8_ascii hu] at h
  induction t generalizing u with
  | nil => cases u with
    | nil => rfl
    | cons => simp at h
  | cons c t ih => cases u with
    | nil => simp at h
    | cons d u =>
      rw [List.map_cons, List.map_cons] at h
      injection h with h1 h2
      have hc := ht c (by simp)
      have hd := hu d (by simp)
      have := congrArg UInt8.toNat h1
      rw [UInt8.toNat_ofNat_of_lt' (show _ < 256 by omega), UInt8.toNat_ofNat_of_lt' (show _ < 256 by omega)] at this
      rw [char_eq this, ih (fun x hx => ht x (by simp [hx])) (fun x hx => hu x (by simp [hx])) h2]

theorem addr_ascii {c : Char} (h : AddrChar c) : c.val.toNat < 128 ∧ c ≠ '(' := by
  have : ∀ c ∈ "0123456789abcdef.:?[]".toList, c.val.toNat < 128 ∧ c ≠ '(' := by decide
  exact this c h

theorem hex_take (b : Bytes) : (hex b).take 8 = hex (b.take 4) := by
  match b with
  | [] => rfl
  | [_] => rfl
  | [_, _] => rfl
  | [_, _, _] => rfl
  | _ :: _ :: _ :: _ :: _ => rfl

end Chat

/-- What a line says is unambiguous: the address, the first four bytes of the key and the words. -/
theorem C125_unambiguous (k k' : PublicKey) (h h' : IP) (p p' : UInt16) (w w' : Bytes) (e : said (newID k h p) w = said (newID k' h' p') w') :
    (newID k h p).address = (newID k' h' p').address ∧ k.1.take 4 = k'.1.take 4 ∧ w = w' := by
  have hk : ∀ (k : PublicKey), ∀ c ∈ hex (k.1.take 4), c.val.toNat < 128 := fun k c hc => (addr_ascii (addrChar_of_hex (hex_chars _ c hc))).1
  have ha : ∀ (k : PublicKey) h p, ∀ c ∈ (newID k h p).address, c.val.toNat < 128 ∧ c ≠ '(' := fun k h p c hc => addr_ascii (address_chars k h p c hc)
  have hn : ∀ (k : PublicKey) h p, (40 : UInt8) ∉ utf8 (newID k h p).address := fun k h p hm => (ha k h p _ ((mem_utf8 (d := '(') (by decide) rfl _).1 hm)).2 rfl
  have hs : ∀ (k : PublicKey) h p w, said (newID k h p) w = utf8 (newID k h p).address ++ 40 :: (utf8 (hex (k.1.take 4)) ++ ([41, 62, 32] ++ w)) := by
    intro k h p w
    rw [said, show (newID k h p).id = k from rfl, hex_take]
    simp only [utf8_append, show utf8 ['('] = [40] by decide, show utf8 [')', '>', ' '] = [41, 62, 32] by decide]
    simp
  rw [hs, hs] at e
  obtain ⟨h1, h2⟩ := append_sep_inj e (hn _ _ _) (hn _ _ _)
  have hl : ∀ k : PublicKey, (utf8 (hex (k.1.take 4))).length = 8 := fun k => by
    rw [utf8_ascii (hk k), List.length_map, hex_length, List.length_take, k.2]; rfl
  obtain ⟨h3, h4⟩ := List.append_inj h2 (by rw [hl, hl])
  refine ⟨ascii_inj (fun c hc => (ha _ _ _ c hc).1) (fun c hc => (ha _ _ _ c hc).1) h1, ?_, List.append_cancel_left h4⟩
  have h5 := congrArg hexDecode (ascii_inj (hk k) (hk k') h3)
  rw [hexDecode_hex, hexDecode_hex] at h5
  exact Res.ok.inj h5

/-- The hypotheses of `C125_attribution_partial` are met by two messages; the lines. -/
example : shown (codec []) [(false, newID (keyOf [1]) [1, 2, 3, 4] 9000, 0 :: 0 :: utf8 "hi".toList), (false, newID (keyOf [2]) [1, 2, 3, 5] 9000, 0 :: 0 :: utf8 "hello".toList)] =
    utf8 "1.2.3.4:9000(01000000)> hi\n1.2.3.5:9000(02000000)> hello\n".toList := by decide +kernel

end Noise
