import Verif.Props.C35
import Verif.Props.C36
import Verif.Props.C01
/-
C41 — MR-FSK frames can be decoded: an explicit receiver that knows only the PHY configuration (modulation, preamble length, FEC
scheme, interleaving) reads whitening flag and length from the header and recovers the message.
-/
namespace SunPhy.C41
open SunPhy C35

/-- Decoder of the systematic code: keep every second bit. -/
def decodeRsc : Bits → Bits
  | _ :: u0 :: r => u0 :: decodeRsc r
  | _ => []

/-- Decoder of the non-recursive code by feedback of the three previous decisions. -/
def decodeNrnsc (a b c : Bool) : Bits → Bits
  | _ :: u0 :: r => let x := !(u0 ^^ a ^^ b ^^ c); x :: decodeNrnsc x a b r
  | _ => []

def decode (scheme : Nat) (code : Bits) : Bits := if scheme = 0 then decodeNrnsc false false false code else decodeRsc code

/-- Undo the interleaver (it is its own inverse). -/
def deinterleave (u : Bits) : Bits := match fskInterleaver u with | .ok v => v | .error _ => []

/-- Undo interleaving and FEC. -/
def decodeBlock (p : FskParams) (u : Bits) : Bits :=
  if p.fecEnabled then decode p.fecScheme (if p.interleaving then deinterleave u else u) else u

/-- The receiver: header first, then dewhitening if the header says so, then as many octets as the header says.  Only the fields
`modulation`, `preambleLength`, `fecEnabled`, `fecScheme` and `interleaving` of `p` are used. -/
def receive (p : FskParams) (bits : Bits) : Bits :=
  let body := bits.drop (shrSize p)
  let header := decodeBlock p (body.take (headerSize p))
  let whitened := header.getD 4 false
  let octets := C04.denotesMSB ((header.drop 5).take 11)
  let u := if whitened then body.take (headerSize p) ++ scrambler (body.drop (headerSize p)) else body
  ((decodeBlock p u).drop 16).take (8 * octets)

theorem decode_rsc (x : Bits) : ∀ M, decodeRsc (fskEncode 1 M x).1 = x := by
  induction x with
  | nil => intro M; rfl
  | cons b x ih =>
    intro M
    rw [fskEncode_cons]
    have : fskU0 1 M b = b := by
      unfold fskU0 fskIter rscIter; cases b <;> rfl
    simp only [decodeRsc, this, ih]

theorem decode_nrnsc (x : Bits) : ∀ a b c, decodeNrnsc a b c (fskEncode 0 (C36.reg3 a b c) x).1 = x := by
  induction x with
  | nil => intros; rfl
  | cons d x ih =>
    intro a b c
    have hit : fskIter 0 (C36.reg3 a b c) d = _ := C36.nrnsc_reg a b c d
    rw [fskEncode_cons]
    unfold fskU0 fskU1 fskStep
    rw [hit]
    have : (!(!(d ^^ a ^^ b ^^ c) ^^ a ^^ b ^^ c)) = d := by revert a b c d; decide
    simp only [decodeNrnsc, this, ih]

theorem decode_encode (s : Nat) (x : Bits) : decode s (fskEncode s 0 x).1 = x := by
  unfold decode
  split
  · rename_i h; subst h; exact decode_nrnsc x false false false
  · rename_i h; rw [fskEncode_scheme h]; exact decode_rsc x 0

theorem deinterleave_of {x u : Bits} (h : fskInterleaver x = .ok u) : deinterleave u = x := by
  unfold deinterleave; rw [(C37.C39_involution _ _ h).1]

/-- The whole unwhitened frame decodes to header ++ message (++ tail and pad). -/
theorem decodeBlock_all {p : FskParams} {x u : Bits} (h : Unwhitened p x u) : ∃ rest, decodeBlock p u = x ++ rest := by
  unfold decodeBlock
  rcases h with ⟨hf, rfl⟩ | ⟨hf, hi, rfl⟩ | ⟨hf, hi, hu⟩
  · exact ⟨[], by simp [hf]⟩
  · rw [hf, hi, fskFec_eq]
    simp only [if_true, Bool.false_eq_true, if_false]
    rw [decode_encode, List.append_assoc]; exact ⟨_, rfl⟩
  · rw [hf, hi]
    simp only [if_true]
    rw [deinterleave_of hu, fskFec_eq, decode_encode, List.append_assoc]; exact ⟨_, rfl⟩

/-- The header block alone decodes to the header. -/
theorem decodeBlock_header {p : FskParams} {hdr m u : Bits} (h16 : hdr.length = 16) (h : Unwhitened p (hdr ++ m) u) :
    decodeBlock p (u.take (headerSize p)) = hdr := by
  unfold decodeBlock headerSize
  rcases h with ⟨hf, rfl⟩ | ⟨hf, hi, rfl⟩ | ⟨hf, hi, hu⟩
  · rw [hf]; simp [List.take_left' h16]
  · rw [hf, hi, fskFec_eq, List.append_assoc, List.append_assoc, fskEncode_append]
    simp only [if_true, Bool.false_eq_true, if_false]
    rw [List.take_left' (by rw [fskEncode_length, h16]), decode_encode]
  · have hm : (fskFec p.fecScheme (hdr ++ m)).length % 32 = 0 := (C37.C39_accepts _).1.1 ⟨_, hu⟩
    rw [C37.interleaver_ok hm] at hu
    rw [hf, hi, ← Except.ok.inj hu, fskFec_eq, List.append_assoc, List.append_assoc, fskEncode_append]
    have h32 : (fskEncode p.fecScheme 0 hdr).1.length = 32 := by rw [fskEncode_length, h16]
    simp only [if_true]
    rw [chunks_append (by decide) h32, List.flatMap_cons, List.take_left' (C37.block_length _)]
    have : deinterleave (fskInterleaveBlock (fskEncode p.fecScheme 0 hdr).1) = (fskEncode p.fecScheme 0 hdr).1 := by
      apply deinterleave_of
      rw [C37.interleaver_ok (by omega)]
      have := chunks_append (n := 32) (by decide) h32 []
      rw [List.append_nil, chunks_nil] at this
      rw [this]; simp
    rw [this, decode_encode]

theorem whiten_header {p : FskParams} {u : Bits} (h : headerSize p ≤ u.length) : (fskWhiten p u).take (headerSize p) = u.take (headerSize p) := by
  unfold fskWhiten
  split
  · simp only [show (if p.fecEnabled = true then 32 else 16) = headerSize p from rfl]
    rw [List.take_left' (by rw [List.length_take]; omega)]
  · rfl

theorem whiten_undo {p : FskParams} {u : Bits} (h : headerSize p ≤ u.length) :
    (if p.scramble then (fskWhiten p u).take (headerSize p) ++ scrambler ((fskWhiten p u).drop (headerSize p)) else fskWhiten p u) = u := by
  split
  · rename_i hs
    rw [whiten_header h]
    unfold fskWhiten
    rw [if_pos hs]
    simp only [show (if p.fecEnabled = true then 32 else 16) = headerSize p from rfl]
    rw [List.drop_left' (by rw [List.length_take]; omega), C07.C07_involution, List.take_append_drop]
  · rename_i hs
    unfold fskWhiten
    rw [if_neg hs]

/-- **C41 (receiver).**  From the transmitted bits of any frame the receiver recovers all the whole octets of the message. -/
theorem C41_receiver (o : FskObj) (a : Arg) (m bits : Bits) (hm : checkBinaryArray a = .ok m) (h : ((fskBinary a).call o).1 = .ok bits) :
    receive o.params bits = m.take (8 * (m.length / 8)) := by
  obtain ⟨m', hdr, u, hm', hl, hp, hh, hu, hb⟩ := frame_parts h
  rw [hm] at hm'
  obtain rfl := Except.ok.inj hm'
  have h16 := isHeader_length hh
  have hge : headerSize o.params ≤ u.length := by
    unfold headerSize
    rcases hu with ⟨hf, rfl⟩ | ⟨hf, -, rfl⟩ | ⟨hf, -, hu⟩
    · rw [hf]; simp [h16]
    · rw [hf, fskFec_length]; simp [h16]; omega
    · rw [(C37.C39_involution _ _ hu).2, hf, fskFec_length]; simp [h16]; omega
  unfold receive
  rw [hb, List.drop_left' (shr_length _)]
  simp only
  rw [whiten_header hge, decodeBlock_header h16 hu]
  obtain ⟨len, rfl, hlen, hn⟩ := hh
  rw [show ([false, false, false, decide (o.params.fcsType = 1), o.params.scramble] ++ len).getD 4 false = o.params.scramble from rfl,
    show ([false, false, false, decide (o.params.fcsType = 1), o.params.scramble] ++ len).drop 5 = len from rfl,
    List.take_of_length_le (l := len) (by omega), hn, ← whiten_header hge, whiten_undo hge]
  obtain ⟨rest, e⟩ := decodeBlock_all hu
  rw [e, List.append_assoc, List.drop_left' h16, List.take_append_of_le_length (by omega)]

/-- **C41 (octet messages).**  Every message of 1..2047 octets is turned into bits from which the receiver recovers exactly its octets
(least significant bit first), whatever the configuration. -/
theorem C41_octets (o : FskObj) (a : Arg) (msg : List UInt8) (h : C01.Denotes a msg) (h1 : 1 ≤ msg.length) (h2 : msg.length ≤ 2047) :
    ∃ m bits : Bits, toBinaryArray a = .ok m ∧ ((fskBinary (bitsArg m)).call o).1 = .ok bits ∧ receive o.params bits = m := by
  obtain ⟨m, e, hl, -⟩ := C01.C01_lsb_first a msg h (by intro e; rw [e] at h1; simp at h1)
  have hne : m ≠ [] := by intro e; rw [e, List.length_nil] at hl; omega
  have hc := C03.C03_identity m hne
  obtain ⟨bits, hb⟩ := (C37.C37_frames o (bitsArg m) m hc (by omega)).1.2 (.inl (by omega))
  refine ⟨m, bits, e, hb, ?_⟩
  rw [C41_receiver o _ m bits hc hb, List.take_of_length_le (by omega)]

/-- **C41 (injective).**  Two octet messages with the same transmitted bits are equal. -/
theorem C41_injective (o o' : FskObj) (hp : o'.params = o.params) (a a' : Arg) (msg msg' : List UInt8) (h : C01.Denotes a msg)
    (h' : C01.Denotes a' msg') (hne : msg ≠ []) (hne' : msg' ≠ []) (m m' bits : Bits) (hm : toBinaryArray a = .ok m)
    (hm' : toBinaryArray a' = .ok m') (e : ((fskBinary (bitsArg m)).call o).1 = .ok bits)
    (e' : ((fskBinary (bitsArg m')).call o').1 = .ok bits) : msg = msg' := by
  have key : ∀ (o : FskObj) (a : Arg) (msg : List UInt8) (m : Bits), C01.Denotes a msg → msg ≠ [] → toBinaryArray a = .ok m →
      ((fskBinary (bitsArg m)).call o).1 = .ok bits → receive o.params bits = m := by
    intro o a msg m h hne hm e
    obtain ⟨m2, e2, hl, -⟩ := C01.C01_lsb_first a msg h hne
    rw [hm] at e2
    obtain rfl := Except.ok.inj e2
    have hpos := List.length_pos_of_ne_nil hne
    rw [C41_receiver o _ m bits (C03.C03_identity m (by intro e; rw [e, List.length_nil] at hl; omega)) e,
      List.take_of_length_le (by omega)]
  have r := key o a msg m h hne hm e
  have r' := key o' a' msg' m' h' hne' hm' e'
  rw [hp, r] at r'
  subst r'
  exact C01.C01_injective a a' msg msg' m h h' hne hne' hm hm'

example : C01.Denotes (.bytes [0x40, 0x00, 0x56]) [0x40, 0x00, 0x56] ∧
    receive ⟨50000, 1, 0, .FSK4, true, 1, 0, true, true, 4⟩ [] = [] := by exact ⟨rfl, by decide⟩

end SunPhy.C41
