import Verif.Model.CallData
import Verif.Base.Keccak256
/-!
# C35: call data of ERC-20 transfers
-/

namespace EvmMinter

/-- Values that fit in the ABI words. -/
def Erc20Transfer.Fits (c : Erc20Transfer) : Prop := c.to < 2 ^ 160 ∧ c.value < 2 ^ 256

/-- The selector of the code is the one of the ERC-20 standard: the first four bytes of the Keccak-256 hash of the
function signature. -/
theorem C35_selector : (Keccak256.hash (Keccak256.ascii "transfer(address,uint256)")).take 4 = transferSelector := by
  decide +kernel

theorem length_encode (c : Erc20Transfer) : c.encode.length = 68 := by
  simp [Erc20Transfer.encode, transferSelector, Address.toWord]

theorem ofWord_eq_some {w : Bytes} (hw : w.length = 32) {a : Address} :
    Address.ofWord w = some a ↔ w = List.replicate 12 0 ++ toBE 20 a ∧ a < 2 ^ 160 := by
  unfold Address.ofWord
  split
  · rename_i h
    have h1 : w.take 12 = List.replicate 12 0 := by
      apply List.eq_replicate_iff.2
      refine ⟨by simp [hw], ?_⟩
      intro b hb
      simpa using List.all_eq_true.1 h b hb
    have h2 : (w.drop 12).length = 20 := by simp [hw]
    simp only [Option.some.injEq]
    constructor
    · rintro rfl
      refine ⟨?_, ?_⟩
      · have h3 := toBE_beNat (w.drop 12)
        rw [h2] at h3
        rw [h3, ← h1, List.take_append_drop]
      · have := beNat_lt (w.drop 12)
        rw [h2] at this
        exact Nat.lt_of_lt_of_eq this (by decide)
    · rintro ⟨h3, h4⟩
      have h5 : w.drop 12 = toBE 20 a := by
        rw [h3]; simp
      rw [h5]
      exact beNat_toBE_of_lt (Nat.lt_of_lt_of_eq h4 (by decide))
  · rename_i h
    simp only [reduceCtorEq, false_iff]
    rintro ⟨h3, _⟩
    apply h
    rw [h3]
    simp [List.take_append, List.all_eq_true, List.mem_replicate]

/-- **C35**, first half: decoding the encoding of a transfer returns the transfer. -/
theorem C35_roundtrip (c : Erc20Transfer) (h : c.Fits) : Erc20Transfer.decode c.encode = .ok (.ok c) := by
  have e1 : c.encode.take 4 = transferSelector := by simp [Erc20Transfer.encode, transferSelector]
  have e2 : (c.encode.drop 4).take 32 = List.replicate 12 0 ++ toBE 20 c.to := by
    simp [Erc20Transfer.encode, transferSelector, Address.toWord, List.take_append]
  have e3 : c.encode.drop 36 = toBE 32 c.value := by
    simp [Erc20Transfer.encode, transferSelector, Address.toWord, List.drop_append]
  have e4 : Address.ofWord ((c.encode.drop 4).take 32) = some c.to := by
    rw [ofWord_eq_some (by simp [length_encode])]
    exact ⟨e2, h.1⟩
  have e5 : beNat (toBE 32 c.value) = c.value := beNat_toBE_of_lt (Nat.lt_of_lt_of_eq h.2 (by decide))
  unfold Erc20Transfer.decode
  rw [length_encode]
  simp only [e1, e4, e3, e5, expect, bind, Except.bind, pure, Except.pure]
  rfl

/-- **C35**, second half: only the 68-byte encodings of transfers are accepted. -/
theorem C35_accepts_exactly (data : Bytes) (c : Erc20Transfer) :
    Erc20Transfer.decode data = .ok (.ok c) ↔ data = c.encode ∧ c.Fits := by
  constructor
  · intro h
    unfold Erc20Transfer.decode at h
    split at h
    · cases h
    · split at h
      · rename_i h4 hsel
        split at h
        · cases h
        · rename_i hlen
          have hlen : data.length = 68 := by simpa using hlen
          simp only [Res.bind_ok, Res.expect_ok, Res.pure_ok, Except.ok.injEq] at h
          obtain ⟨a, ha, rfl⟩ := h
          rw [ofWord_eq_some (by simp [hlen])] at ha
          refine ⟨?_, ha.2, ?_⟩
          · have h1 : data = data.take 4 ++ ((data.drop 4).take 32 ++ data.drop 36) := by
              conv => lhs; rw [← List.take_append_drop 4 data]
              congr 1
              conv => lhs; rw [← List.take_append_drop 32 (data.drop 4)]
              rw [List.drop_drop]
            have h2 : toBE 32 (beNat (data.drop 36)) = data.drop 36 := by
              have := toBE_beNat (data.drop 36)
              rwa [show (data.drop 36).length = 32 by simp [hlen]] at this
            simp only [Erc20Transfer.encode, Address.toWord, h2]
            rw [hsel, ha.1] at h1
            simpa only [List.append_assoc] using h1
          · have := beNat_lt (data.drop 36)
            rw [show (data.drop 36).length = 32 by simp [hlen]] at this
            exact Nat.lt_of_lt_of_eq this (by decide)
      · cases h
  · rintro ⟨rfl, h⟩
    exact C35_roundtrip c h

/-- **C35**, the exact condition for a panic: 68 bytes with the transfer selector whose address word has a non-zero
byte among the first twelve. So `decode` is not panic-free on arbitrary data, and it is on data it accepts. -/
theorem C35_no_panic_partial (data : Bytes) :
    (∃ m, Erc20Transfer.decode data = .error m) ↔
      data.length = 68 ∧ data.take 4 = [0xa9, 0x05, 0x9c, 0xbb] ∧ ∃ b ∈ (data.drop 4).take 12, b ≠ 0 := by
  unfold Erc20Transfer.decode
  split
  · rename_i h; simp only [reduceCtorEq, exists_const, false_iff]; omega
  · split
    · rename_i h4 hsel
      split
      · rename_i hlen; simp only [reduceCtorEq, exists_const, false_iff]; exact fun h => hlen h.1
      · rename_i hlen
        have hlen : data.length = 68 := by simpa using hlen
        have h1 : ((data.drop 4).take 32).take 12 = (data.drop 4).take 12 := by rw [List.take_take]; rfl
        unfold Address.ofWord
        rw [h1]
        by_cases hall : ((data.drop 4).take 12).all (· == 0) = true
        · rw [if_pos hall]
          have : ¬ ∃ b ∈ (data.drop 4).take 12, b ≠ 0 := by
            rintro ⟨b, hb, hne⟩
            exact hne (by simpa using List.all_eq_true.1 hall b hb)
          simp only [expect, bind, Except.bind, pure, Except.pure, reduceCtorEq, exists_const, false_iff]
          exact fun h => this h.2.2
        · rw [if_neg hall]
          have : ∃ b ∈ (data.drop 4).take 12, b ≠ 0 := by
            simpa [List.all_eq_true] using hall
          simp only [expect, bind, Except.bind]
          exact ⟨fun _ => ⟨hlen, hsel, this⟩, fun _ => ⟨_, rfl⟩⟩
    · rename_i hsel
      simp only [reduceCtorEq, exists_const, false_iff]
      exact fun h => hsel h.2.1

namespace Example

/-- C35 on a concrete transfer. -/
example : (⟨0xbeef, 200⟩ : Erc20Transfer).Fits ∧
    Erc20Transfer.decode (Erc20Transfer.encode ⟨0xbeef, 200⟩) = .ok (.ok ⟨0xbeef, 200⟩) := by
  refine ⟨⟨by decide, by decide⟩, by decide +kernel⟩

/-- The "never panics" part of C35 is false: the address is unwrapped (transactions/mod.rs:1218). -/
theorem C35_violated_decode_panics : ∃ data m, Erc20Transfer.decode data = .error m :=
  ⟨[0xa9, 0x05, 0x9c, 0xbb] ++ List.replicate 64 1, "called `Result::unwrap()` on an `Err` value", by decide +kernel⟩

end Example

end EvmMinter
