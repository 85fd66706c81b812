import Verif.Props.C20
import Verif.Props.C37
/-
C95 — what the interleavers are for: neighbouring coded bits travel far apart, so that a damaged tone or a burst hits coded bits that are not neighbours.
-/
namespace SunPhy.C95
open SunPhy Spec OfdmParams

/-- Distance of two positions. -/
def dist (a b : Nat) : Nat := (a - b) + (b - a)

/-- Smallest distance, in data tones, of two neighbouring coded bits: an option with `96, 48, 24, 12` data tones gives `8, 4, 2, 1`. -/
def toneGap (option : Nat) : Nat := tonesOf option / 12

theorem separated : ∀ p ∈ mcsOptIntl, ∀ MCS ∈ [p.mcs, lowestMcs p.option], ∀ k ∈ List.range (depth p.interleaving p.option MCS),
    (∀ d ∈ [1, 2, 3, 4, 5], k + d < depth p.interleaving p.option MCS →
      C19.position p.interleaving p.option MCS k / bitsOf MCS ≠ C19.position p.interleaving p.option MCS (k + d) / bitsOf MCS) ∧
    (k + 1 < depth p.interleaving p.option MCS →
      toneGap p.option ≤ dist (C19.position p.interleaving p.option MCS k / bitsOf MCS) (C19.position p.interleaving p.option MCS (k + 1) / bitsOf MCS)) := by
  decide +kernel

/-- **C95 (MR-OFDM).**  In every supported configuration, for header and payload, there are positions `pos` such that in every block of every coded stream bit
`k` leaves the interleaver at `pos k`, and two coded bits at most five apart are never carried by the same constellation point; neighbouring coded bits are at
least `toneGap` (8, 4, 2, 1 for options 1 to 4) constellation points apart.  A constellation point carries `bitsOf MCS` consecutive interleaved bits. -/
theorem C95_ofdm (p : OfdmParams) (h : Supported p) (MCS : Nat) (hM : MCS = p.mcs ∨ MCS = lowestMcs p.option) :
    ∃ pos : Nat → Nat,
      (∀ (x : Bits) (b k : Nat), x.length % depth p.interleaving p.option MCS = 0 → b < x.length / depth p.interleaving p.option MCS →
        k < depth p.interleaving p.option MCS → pos k < depth p.interleaving p.option MCS ∧
        (p.interleaver x MCS)[b * depth p.interleaving p.option MCS + pos k]? = x[b * depth p.interleaving p.option MCS + k]?) ∧
      (∀ k k' : Nat, k < k' → k' ≤ k + 5 → k' < depth p.interleaving p.option MCS → pos k / bitsOf MCS ≠ pos k' / bitsOf MCS) ∧
      (∀ k : Nat, k + 1 < depth p.interleaving p.option MCS → toneGap p.option ≤ dist (pos k / bitsOf MCS) (pos (k + 1) / bitsOf MCS)) := by
  have hs := separated _ (mem_mcsOptIntl h) MCS (by simpa using hM)
  refine ⟨C19.position p.interleaving p.option MCS, fun x b k hx hb hk => C20.bit_moves h hM x hx b k hb hk, fun k k' h1 h2 h3 => ?_, fun k hk => ?_⟩
  · have := (hs k (by simp; omega)).1 (k' - k) (by simp; omega) (by show k + (k' - k) < depth p.interleaving p.option MCS; omega)
    rwa [show k + (k' - k) = k' by omega] at this
  · exact (hs k (by simp; omega)).2 hk

/-- Header (MCS 0, depth 24) and payload (MCS 3, depth 192) of option 1. -/
example : Supported ⟨3, 1, 0, 0⟩ ∧ depth 0 1 3 = 192 ∧ depth 0 1 (lowestMcs 1) = 24 := ⟨by unfold Supported; decide, by decide⟩

/-- Where a code symbol (pair of coded bits) leaves the MR-FSK interleaver. -/
def sigma (k : Nat) : Nat := 16 * (k / 16) + (15 - 4 * (k % 4) - k % 16 / 4)

/-- **C95 (MR-FSK).**  Code symbol `k` (coded bits `2k`, `2k+1`) leaves the interleaver at `sigma k`, and a burst of up to four consecutive transmitted symbols —
also across blocks — never hits two code symbols that are less than three apart. -/
theorem C95_fsk (data out : Bits) (h : fskInterleaver data = .ok out) :
    (∀ k b : Nat, b < 2 → 2 * k + b < data.length → out[2 * sigma k + b]? = data[2 * k + b]?) ∧
    (∀ k k' : Nat, k ≠ k' → dist (sigma k) (sigma k') ≤ 3 → 3 ≤ dist k k') := by
  constructor
  · intro k b hb hk
    have := C37.C39_permutation data out h (k / 16) (2 * (k % 16) + b) (by omega) (by omega)
    rw [show 32 * (k / 16) + (2 * (k % 16) + b) = 2 * k + b by omega, show (2 * (k % 16) + b) / 2 = k % 16 by omega,
      show (2 * (k % 16) + b) % 2 = b by omega, show k % 16 % 4 = k % 4 by omega] at this
    rw [← this]
    congr 1
    unfold sigma; omega
  · intro k k' hne hd
    have key : ∀ k k' : Nat, k < k' → k' ≤ k + 2 → 3 < dist (sigma k) (sigma k') := by
      intro k k' h1 h2
      have h16 : k % 16 < 16 := Nat.mod_lt _ (by decide)
      have hk : k = 16 * (k / 16) + k % 16 := (Nat.div_add_mod k 16).symm
      generalize k / 16 = q at hk
      generalize k % 16 = r at hk h16
      subst hk
      have hs : ∀ j, sigma (16 * q + j) = 16 * q + sigma j := by intro j; unfold sigma; omega
      have hd : ∀ a b, dist (16 * q + a) (16 * q + b) = dist a b := by intro a b; unfold dist; omega
      have fin : ∀ r ∈ List.range 16, 3 < dist (sigma r) (sigma (r + 1)) ∧ 3 < dist (sigma r) (sigma (r + 2)) := by decide
      have := fin r (by simpa using h16)
      obtain rfl | rfl : k' = 16 * q + (r + 1) ∨ k' = 16 * q + (r + 2) := by omega
      · rw [hs, hs, hd]; exact this.1
      · rw [hs, hs, hd]; exact this.2
    by_contra hc
    unfold dist at hc
    rcases Nat.lt_or_gt_of_ne hne with hlt | hlt
    · have := key k k' hlt (by omega)
      omega
    · have := key k' k hlt (by omega)
      unfold dist at this hd
      omega

/-- Not more: two code symbols exactly three apart can be neighbours within four transmitted symbols. -/
example : dist (sigma 4) (sigma 1) = 3 ∧ dist 4 1 = 3 := by decide

end SunPhy.C95
