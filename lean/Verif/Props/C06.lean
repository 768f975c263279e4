import Verif.Lemmas.SoundInv
import Verif.Lemmas.Deposits
import Verif.Model.Registration
import Verif.Spec.ExampleRun
/-!
# C06, C26: only registered tokens; registration is restricted and conflict-free
-/

namespace EvmMinter

open Spec

/-- The tokens registered by the log, in order. -/
def Spec.tokensOf : List Event → List Erc20Token
  | [] => []
  | .addedErc20Token t :: l => t :: tokensOf l
  | _ :: l => tokensOf l

/-- Two tokens share neither symbol nor ledger nor contract. -/
def Erc20Token.Apart (t u : Erc20Token) : Prop :=
  t.symbol ≠ u.symbol ∧ t.erc20LedgerId ≠ u.erc20LedgerId ∧ t.erc20ContractAddress ≠ u.erc20ContractAddress

theorem tokensOf_append (l₁ l₂ : List Event) : tokensOf (l₁ ++ l₂) = tokensOf l₁ ++ tokensOf l₂ := by
  induction l₁ with
  | nil => rfl
  | cons e t ih => cases e <;> simp [tokensOf, ih]

theorem tokensOf_single {e : Event} (h : ∀ t, e ≠ .addedErc20Token t) : tokensOf [e] = [] := by
  cases e <;> first | rfl | exact absurd rfl (h _)

section
variable [Keccak]

/-- Relation between the registry and the log. -/
structure Registry (log : List Event) (s : State) : Prop where
  wf : s.erc20Tokens.WF
  has : ∀ l c sym, s.erc20Tokens.Has l c sym ↔ ⟨s.evmNetwork, c, sym, l⟩ ∈ tokensOf log
  chain : ∀ t ∈ tokensOf log, t.chainId = s.evmNetwork
  apart : (tokensOf log).Pairwise Erc20Token.Apart
  deposits : ∀ src d, s.eventsToMint.get src = some (.erc20 d) →
    s.erc20Tokens.containsAlt d.erc20ContractAddress = true
  accepted : ∀ d, .acceptedErc20Deposit d ∈ log → s.erc20Tokens.containsAlt d.erc20ContractAddress = true
  withdrawals : ∀ r, .acceptedErc20WithdrawalRequest r ∈ log → s.erc20Tokens.containsAlt r.erc20ContractAddress = true

omit [Keccak] in
theorem supported_mem {s : State} (w : s.erc20Tokens.WF) :
    ∃ toks, s.supportedErc20Tokens = .ok toks ∧
      ∀ t, t ∈ toks ↔ t.chainId = s.evmNetwork ∧ s.erc20Tokens.Has t.erc20LedgerId t.erc20ContractAddress t.symbol := by
  obtain ⟨r, e1, e2, _⟩ := DMKM.iter_total w
  refine ⟨r.map fun x => ⟨s.evmNetwork, x.2.1, x.2.2, x.1⟩, ?_, ?_⟩
  · simp [State.supportedErc20Tokens, e1, bind, Except.bind, pure, Except.pure]
  · intro t
    rw [List.mem_map]
    constructor
    · rintro ⟨⟨l, c, sym⟩, hx, rfl⟩; exact ⟨rfl, (e2 _ _ _).1 hx⟩
    · rintro ⟨h1, h2⟩
      refine ⟨(t.erc20LedgerId, t.erc20ContractAddress, t.symbol), (e2 _ _ _).2 h2, ?_⟩
      rw [← h1]

theorem registry_of_replay {log : List Event} {s : State} (h : replay log = .ok s) : Registry log s := by
  refine replay_induct (P := Registry) ?_ ?_ h
  · intro a s h
    obtain ⟨h1, h2, h3, h4, _⟩ := ofInit_ok h
    refine ⟨h4 ▸ DMKM.wf_empty, ?_, ?_, ?_, ?_, ?_, ?_⟩
    · intro l c sym; rw [h4]; simp [tokensOf, DMKM.not_has_empty]
    · simp [tokensOf]
    · simp [tokensOf]
    · intro src d; rw [h1]; intro hh; cases hh
    · intro d hd; simp at hd
    · intro d hd; simp at hd
  · intro log s e s' _ ih ha
    obtain ⟨f1, _, f3⟩ := applyEvent_frame ha
    have hnet : s'.evmNetwork = s.evmNetwork := applyEvent_network ha
    have hdep := applyEvent_dep ha
    have grow : ∀ c, s.erc20Tokens.containsAlt c = true → s'.erc20Tokens.containsAlt c = true := by
      intro c hc
      by_cases ht : ∃ t, e = .addedErc20Token t
      · obtain ⟨t, rfl⟩ := ht
        simp only [applyEvent] at ha
        obtain ⟨_, _, m, _, _, hi, rfl⟩ := recordAddErc20Token_ok ha
        obtain ⟨k, v, hh⟩ := (DMKM.containsAlt_eq ih.wf).1 hc
        exact (DMKM.containsAlt_eq (DMKM.tryInsert_wf ih.wf hi)).2 ⟨k, v, (DMKM.tryInsert_has ih.wf hi).2 (.inr hh)⟩
      · rw [f3 (fun t h => ht ⟨t, h⟩)]; exact hc
    have hsup : ∀ d, e = .acceptedErc20Deposit d → s.erc20Tokens.containsAlt d.erc20ContractAddress = true := by
      rintro d rfl
      simp only [applyEvent] at ha
      exact (recordEventToMint_ok ha).2.2.2.1
    have hdeps : ∀ src d, s'.eventsToMint.get src = some (.erc20 d) →
        s'.erc20Tokens.containsAlt d.erc20ContractAddress = true := by
      intro src d hd
      apply grow
      change s'.dep.toMint.get src = _ at hd
      generalize s'.dep = D at hd hdep
      cases hdep with
      | accept d' n1 n2 n3 =>
        by_cases es : src = d'.source
        · subst es
          simp only [FMap.get_insert_self, Option.some.injEq] at hd
          subst hd
          exact hsup d rfl
        · simp only at hd
          rw [FMap.get_insert, if_neg es] at hd
          exact ih.deposits src d hd
      | mint e src' d' b sym c h1 h2 h3 h4 =>
        simp only [FMap.get_erase] at hd
        split at hd
        · cases hd
        · exact ih.deposits src d hd
      | invalid => exact ih.deposits src d hd
      | invalidAgain => exact ih.deposits src d hd
      | quarantine src' =>
        simp only [FMap.get_erase] at hd
        split at hd
        · cases hd
        · exact ih.deposits src d hd
      | other => exact ih.deposits src d hd
    have hacc : ∀ d, .acceptedErc20Deposit d ∈ log ++ [e] → s'.erc20Tokens.containsAlt d.erc20ContractAddress = true := by
      intro d hd
      apply grow
      rw [List.mem_append, List.mem_singleton] at hd
      rcases hd with hd | hd
      · exact ih.accepted d hd
      · exact hsup d hd.symm
    have hwd : ∀ r, .acceptedErc20WithdrawalRequest r ∈ log ++ [e] →
        s'.erc20Tokens.containsAlt r.erc20ContractAddress = true := by
      intro r hr
      apply grow
      rw [List.mem_append, List.mem_singleton] at hr
      rcases hr with hr | hr
      · exact ih.withdrawals r hr
      · subst hr
        simp only [applyEvent] at ha
        exact (recordErc20WithdrawalRequest_ok ha).1
    by_cases ht : ∃ t, e = .addedErc20Token t
    · obtain ⟨t, rfl⟩ := ht
      have hto : tokensOf (log ++ [.addedErc20Token t]) = tokensOf log ++ [t] := by rw [tokensOf_append]; rfl
      simp only [applyEvent] at ha
      obtain ⟨g1, toks, m, g2, g3, hi, rfl⟩ := recordAddErc20Token_ok ha
      obtain ⟨toks', g4, g5⟩ := supported_mem ih.wf
      rw [g2] at g4; cases g4
      have hf := MKM.tryInsert_fresh (DMKM.tryInsert_map.1 hi)
      refine ⟨DMKM.tryInsert_wf ih.wf hi, ?_, ?_, ?_, hdeps, hacc, hwd⟩
      · intro l c sym
        rw [DMKM.tryInsert_has ih.wf hi, ih.has, hto, List.mem_append, List.mem_singleton]
        constructor
        · rintro (⟨rfl, rfl, rfl⟩ | hh)
          · right; show Erc20Token.mk s.evmNetwork _ _ _ = t; rw [g1]
          · exact .inl hh
        · rintro (hh | hh)
          · exact .inr hh
          · subst hh; exact .inl ⟨rfl, rfl, rfl⟩
      · intro u hu
        rw [hto, List.mem_append, List.mem_singleton] at hu
        rcases hu with hu | rfl
        · exact ih.chain u hu
        · exact g1.symm
      · rw [hto, List.pairwise_append]
        refine ⟨ih.apart, List.pairwise_singleton _ _, ?_⟩
        intro u hu v hv
        rw [List.mem_singleton] at hv; subst hv
        have hc := ih.chain u hu
        have hh : s.erc20Tokens.Has u.erc20LedgerId u.erc20ContractAddress u.symbol := by
          rw [ih.has, ← hc]; exact hu
        refine ⟨g3 u ((g5 u).2 ⟨hc, hh⟩), ?_, ?_⟩
        · intro he
          have hh' : s.erc20Tokens.map.Has u.erc20LedgerId u.erc20ContractAddress (u.erc20LedgerId, u.symbol) := hh
          rw [he] at hh'
          exact hf.1 _ _ hh'
        · intro he
          have hh' : s.erc20Tokens.map.Has u.erc20LedgerId u.erc20ContractAddress (u.erc20LedgerId, u.symbol) := hh
          rw [he] at hh'
          exact hf.2 _ _ hh'
    · have ht' : ∀ t, e ≠ .addedErc20Token t := fun t h => ht ⟨t, h⟩
      have hto : tokensOf (log ++ [e]) = tokensOf log := by rw [tokensOf_append, tokensOf_single ht', List.append_nil]
      refine ⟨f3 ht' ▸ ih.wf, ?_, ?_, ?_, hdeps, hacc, hwd⟩
      · intro l c sym; rw [f3 ht', hto, hnet]; exact ih.has l c sym
      · intro t hm; rw [hto] at hm; rw [hnet]; exact ih.chain t hm
      · rw [hto]; exact ih.apart

theorem registry_of_run {log : List Event} {s : State} (h : Run log s) : Registry log s := by
  obtain ⟨s₀, h1, _, _, h4⟩ := run_replay h
  obtain ⟨r1, r2, r3, r4, r5, r6, r7⟩ := registry_of_replay h1
  rw [h4]
  exact ⟨r1, r2, r3, r4, r5, r6, r7⟩

omit [Keccak] in
theorem Registry.exists_unique {log : List Event} {s : State} (h : Registry log s) {c : Address}
    (hc : s.erc20Tokens.containsAlt c = true) :
    ∃ t, t ∈ tokensOf log ∧ t.erc20ContractAddress = c ∧ s.erc20Tokens.getEntryAlt c = some (t.erc20LedgerId, t.symbol) ∧
      ∀ u ∈ tokensOf log, u.erc20ContractAddress = c → u = t := by
  obtain ⟨l, sym, hh⟩ := (DMKM.containsAlt_eq h.wf).1 hc
  refine ⟨⟨s.evmNetwork, c, sym, l⟩, (h.has _ _ _).1 hh, rfl, (DMKM.getEntryAlt_eq h.wf).2 hh, ?_⟩
  rintro ⟨net, c', sym', l'⟩ hu rfl
  have hn := h.chain _ hu
  simp only at hn
  subst hn
  obtain ⟨rfl, rfl⟩ := DMKM.Has.unique_alt h.wf hh ((h.has _ _ _).2 hu)
  rfl

/-- **C06.** At every point of the history and at any later time: an accepted ERC-20 deposit names a contract that had
been registered before, and exactly one registration of it exists in the whole history (so it never changes). -/
theorem C06_deposits_registered {log pre post : List Event} {s : State} {d : Erc20Deposit} (h : replay log = .ok s)
    (hl : log = pre ++ .acceptedErc20Deposit d :: post) :
    ∃ t ∈ tokensOf pre, t.erc20ContractAddress = d.erc20ContractAddress ∧
      (∀ u ∈ tokensOf log, u.erc20ContractAddress = d.erc20ContractAddress → u = t) ∧
      s.erc20Tokens.getEntryAlt d.erc20ContractAddress = some (t.erc20LedgerId, t.symbol) := by
  have hne : pre ≠ [] := by
    rintro rfl
    rw [hl] at h; simp [replay] at h
  rw [hl] at h
  obtain ⟨s₁, h1, h2⟩ := replay_prefix h hne
  have hsup : s₁.erc20Tokens.containsAlt d.erc20ContractAddress = true := by
    simp only [applyEvents, Res.bind_ok, applyEvent] at h2
    obtain ⟨s2, h3, _⟩ := h2
    exact (recordEventToMint_ok h3).2.2.2.1
  obtain ⟨t, t1, t2, _, _⟩ := (registry_of_replay h1).exists_unique hsup
  have R := registry_of_replay h
  obtain ⟨u, u1, u2, u3, u4⟩ := R.exists_unique (R.accepted d (by simp))
  have : t = u := u4 t (by rw [tokensOf_append]; exact List.mem_append_left _ t1) t2
  subst this
  exact ⟨t, t1, t2, by rw [hl]; exact u4, u3⟩

/-- **C06** for withdrawals; the request also carries the ledger of that registration. -/
theorem C06_withdrawals_registered {log pre post : List Event} {s : State} {r : Erc20Request} (h : Run log s)
    (hl : log = pre ++ .acceptedErc20WithdrawalRequest r :: post) :
    ∃ t ∈ tokensOf pre, t.erc20ContractAddress = r.erc20ContractAddress ∧ t.erc20LedgerId = r.erc20LedgerId ∧
      (∀ u ∈ tokensOf log, u.erc20ContractAddress = r.erc20ContractAddress ∨ u.erc20LedgerId = r.erc20LedgerId → u = t) ∧
      s.erc20Tokens.getEntryAlt r.erc20ContractAddress = some (t.erc20LedgerId, t.symbol) := by
  have hne : pre ≠ [] := by
    rintro rfl
    obtain ⟨a, t, ht⟩ := run_head h
    rw [ht] at hl; simp at hl
  obtain ⟨s₁, s₂, h1, h2, h3, _⟩ := run_at h hl hne
  obtain ⟨_, _, _, _, sym, h2⟩ := h2
  have R1 := registry_of_run h1
  have hh := (DMKM.getEntry_eq R1.wf).1 h2
  have R := registry_of_run h
  have hm := (R1.has _ _ _).1 hh
  have hm' : (⟨s₁.evmNetwork, r.erc20ContractAddress, sym, r.erc20LedgerId⟩ : Erc20Token) ∈ tokensOf log := by
    rw [hl, tokensOf_append]; exact List.mem_append_left _ hm
  obtain ⟨u, u1, u2, u3, u4⟩ := R.exists_unique (R.withdrawals r (by rw [hl]; simp))
  have e := u4 _ hm' rfl
  refine ⟨_, hm, rfl, rfl, ?_, ?_⟩
  · intro v hv hor
    rw [e]
    rcases hor with h' | h'
    · exact u4 v hv h'
    · apply Decidable.byContradiction
      intro hc
      have : u.erc20LedgerId = r.erc20LedgerId := by rw [← e]
      rcases List.pairwise_iff_getElem.1 R.apart with hp
      obtain ⟨i, hi, rfl⟩ := List.mem_iff_getElem.1 hv
      obtain ⟨j, hj, rfl⟩ := List.mem_iff_getElem.1 u1
      rcases Nat.lt_trichotomy i j with hij | hij | hij
      · exact (hp i j hi hj hij).2.1 (h'.trans this.symm)
      · subst hij; exact hc rfl
      · exact (hp j i hj hi hij).2.1 (this.trans h'.symm)
  · rw [u3, ← e]

/-- **C06**: a deposit waiting to be minted has a registered ledger, so the lookup in the minting task
(deposit.rs:66-80) never panics. -/
theorem C06_mint_lookup {log : List Event} {s : State} (h : Run log s) {src : EventSource} {d : Erc20Deposit}
    (hd : s.eventsToMint.get src = some (.erc20 d)) :
    ∃ t ∈ tokensOf log, t.erc20ContractAddress = d.erc20ContractAddress ∧
      s.erc20Tokens.getEntryAlt d.erc20ContractAddress = some (t.erc20LedgerId, t.symbol) := by
  have R := registry_of_run h
  obtain ⟨t, t1, t2, t3, _⟩ := R.exists_unique (R.deposits src d hd)
  exact ⟨t, t1, t2, t3⟩

/-! ## C26 -/

omit [Keccak] in
theorem ofChainId_eq {n : Nat} {x : EvmNetwork} : EvmNetwork.ofChainId n = some x ↔ x.chainId = n := by
  constructor
  · intro h
    unfold EvmNetwork.ofChainId at h
    split at h <;> first | (cases h; rfl) | cases h
  · rintro rfl; cases x <;> rfl

/-- The symbol is an ASCII string of at most 20 bytes. -/
def Spec.GoodSymbol (s : String) : Prop := s.utf8ByteSize ≤ 20 ∧ ∀ c ∈ s.toList, c.toNat < 128

omit [Keccak] in
theorem parseSymbol_eq {s t : String} : parseSymbol s = some t ↔ GoodSymbol s ∧ t = s := by
  unfold parseSymbol GoodSymbol
  split
  · constructor
    · intro h; cases h
    · rintro ⟨⟨h, _⟩, _⟩; omega
  · split
    · rename_i h1 h2
      simp only [List.all_eq_true, decide_eq_true_eq] at h2
      constructor
      · intro h; cases h; exact ⟨⟨by omega, h2⟩, rfl⟩
      · rintro ⟨_, rfl⟩; rfl
    · rename_i h1 h2
      simp only [List.all_eq_true, decide_eq_true_eq] at h2
      constructor
      · intro h; cases h
      · rintro ⟨⟨_, h⟩, _⟩; exact absurd h h2

omit [Keccak] in
theorem hexDigit_lt {c : Char} {d : Nat} (h : hexDigit c = some d) : d < 16 := by
  unfold hexDigit at h
  dsimp only at h
  split at h
  · simp only [Option.some.injEq] at h; omega
  · split at h
    · simp only [Option.some.injEq] at h; omega
    · split at h
      · simp only [Option.some.injEq] at h; omega
      · cases h

omit [Keccak] in
theorem hexValue_lt (l : List Char) : ∀ {acc n : Nat}, hexValue acc l = some n → n < (acc + 1) * 16 ^ l.length := by
  induction l with
  | nil => intro acc n h; simp only [hexValue, Option.some.injEq] at h; simp; omega
  | cons c t ih =>
    intro acc n h
    simp only [hexValue, Option.bind_eq_some_iff] at h
    obtain ⟨d, hd, h⟩ := h
    have := ih h
    have := hexDigit_lt hd
    have h2 : (acc * 16 + d + 1) * 16 ^ t.length ≤ ((acc + 1) * 16) * 16 ^ t.length := Nat.mul_le_mul_right _ (by omega)
    have h3 : ((acc + 1) * 16) * 16 ^ t.length = (acc + 1) * 16 ^ (c :: t).length := by
      rw [List.length_cons, Nat.pow_succ, Nat.mul_assoc, Nat.mul_comm 16]
    omega

omit [Keccak] in
/-- A parsed address has 20 bytes. -/
theorem Address.parse_lt {s : List Char} {a : Address} (h : Address.parse s = some a) : a < 2 ^ 160 := by
  unfold Address.parse at h
  split at h
  · split at h
    · rename_i hl
      have := hexValue_lt _ h
      rw [hl] at this
      have e : (0 + 1) * 16 ^ 40 = 2 ^ 160 := by decide
      rw [e] at this
      exact this
    · cases h
  · cases h

omit [Keccak] in
theorem ofArg_eq {a : AddErc20TokenArg} {t : Erc20Token} :
    Erc20Token.ofArg a = some t ↔ a.chainId = t.chainId.chainId ∧ Address.parse a.address = some t.erc20ContractAddress ∧
      GoodSymbol a.symbol ∧ t.symbol = a.symbol ∧ t.erc20LedgerId = a.ledgerId := by
  have hb : ∀ x : EvmNetwork, x.chainId < 2 ^ 64 := by intro x; cases x <;> decide
  unfold Erc20Token.ofArg
  constructor
  · intro h
    by_cases hc : a.chainId < 2 ^ 64
    case neg => rw [if_neg hc] at h; cases h
    rw [if_pos hc] at h
    simp only [Option.bind_eq_bind, Option.bind_some, Option.bind_eq_some_iff] at h
    obtain ⟨net, h2, addr, h3, sym, h4, h5⟩ := h
    rw [ofChainId_eq] at h2
    obtain ⟨g, rfl⟩ := parseSymbol_eq.1 h4
    cases h5
    exact ⟨h2.symm, h3, g, rfl, rfl⟩
  · rintro ⟨h1, h2, h3, h4, h5⟩
    rw [if_pos (h1 ▸ hb _)]
    simp only [Option.bind_eq_bind, Option.bind_some]
    rw [ofChainId_eq.2 h1.symm, h2, parseSymbol_eq.2 ⟨h3, rfl⟩]
    simp only [Option.bind_some]
    rw [← h4, ← h5]; rfl

/-- When a registration may be accepted, in terms of the history: the caller is the ledger suite manager given at init,
the arguments are well formed, the chain is that of the minter, and no earlier token uses the symbol, ledger or contract. -/
structure Spec.MayRegister (log : List Event) (caller : Principal) (a : AddErc20TokenArg) (t : Erc20Token) : Prop where
  caller : ∃ i tl, log = .init i :: tl ∧ caller = i.ledgerSuiteManagerId ∧ t.chainId = i.evmNetwork
  chain : a.chainId = t.chainId.chainId
  address : Address.parse a.address = some t.erc20ContractAddress
  symbol : GoodSymbol a.symbol ∧ t.symbol = a.symbol
  ledger : t.erc20LedgerId = a.ledgerId
  fresh : ∀ u ∈ tokensOf log, u.Apart t

theorem run_fixed {log : List Event} {s : State} (h : Run log s) :
    ∃ i tl, log = .init i :: tl ∧ s.evmNetwork = i.evmNetwork ∧ s.ledgerSuiteManagerId = some i.ledgerSuiteManagerId := by
  obtain ⟨s₀, h1, _, _, h4⟩ := run_replay h
  rw [h4]
  show ∃ i tl, log = .init i :: tl ∧ s₀.evmNetwork = i.evmNetwork ∧ s₀.ledgerSuiteManagerId = some i.ledgerSuiteManagerId
  refine replay_induct (P := fun log s => ∃ i tl, log = .init i :: tl ∧ s.evmNetwork = i.evmNetwork ∧
    s.ledgerSuiteManagerId = some i.ledgerSuiteManagerId) ?_ ?_ h1
  · intro a s h
    have := ofInit_ok h
    exact ⟨a, [], rfl, this.2.2.2.2.2.2.2.2.2.2.2.1, this.2.2.2.2.2.2.2.2.2.2.2.2.2.2.2.1⟩
  · rintro log s e s' _ ⟨i, tl, rfl, h2, h3⟩ ha
    have hf := (applyEvent_frame ha).1
    refine ⟨i, tl ++ [e], rfl, ?_, ?_⟩
    · rw [← h2]; exact congrArg FixedConfig.evmNetwork hf
    · rw [← h3]; exact congrArg FixedConfig.ledgerSuiteManagerId hf

/-- **C26.** In any reachable state, a registration is accepted exactly when it may be (`MayRegister`); it then records
that token and changes nothing but the registry. -/
theorem C26_accepts_exactly {log : List Event} {s : State} (h : Run log s) (caller : Principal) (a : AddErc20TokenArg)
    (e : Event) (s' : State) :
    addErc20Token s caller a = .ok (e, s') ↔ ∃ t m, MayRegister log caller a t ∧ e = .addedErc20Token t ∧
      s.erc20Tokens.tryInsert t.erc20LedgerId t.erc20ContractAddress t.symbol = .ok m ∧
      s' = { s with erc20Tokens := m } := by
  obtain ⟨i, tl, hlog, hnet, hman⟩ := run_fixed h
  have R := registry_of_run h
  unfold addErc20Token
  simp only [Res.bind_ok, Res.expect_ok, Res.ensure_ok, beq_iff_eq, Res.pure_ok]
  constructor
  · rintro ⟨mgr, hmgr, _, hc, t, ht, s1, ha, he⟩
    rw [hman] at hmgr
    cases hmgr
    cases he
    have hrun : Registry (log ++ [.addedErc20Token t]) s' :=
      registry_of_run (.event _ _ _ _ h (Address.parse_lt (ofArg_eq.1 ht).2.1) ha)
    simp only [applyEvent] at ha
    obtain ⟨g1, toks, m, g2, g3, hi, rfl⟩ := recordAddErc20Token_ok ha
    obtain ⟨o1, o2, o3, o4, o5⟩ := ofArg_eq.1 ht
    refine ⟨t, m, ⟨⟨i, tl, hlog, hc.symm, by rw [← g1, hnet]⟩, o1, o2, ⟨o3, o4⟩, o5, ?_⟩, rfl, hi, rfl⟩
    have := hrun.apart
    rw [tokensOf_append, List.pairwise_append] at this
    exact fun u hu => this.2.2 u hu t (by simp [tokensOf])
  · rintro ⟨t, m, ⟨⟨i', tl', hlog', hc, hch⟩, o1, o2, ⟨o3, o4⟩, o5, hf⟩, rfl, hi, rfl⟩
    rw [hlog] at hlog'
    cases hlog'
    refine ⟨_, hman, (), hc.symm, t, ofArg_eq.2 ⟨o1, o2, o3, o4, o5⟩, _, ?_, rfl⟩
    obtain ⟨toks, g1, g2⟩ := supported_mem R.wf
    have hn : s.evmNetwork = t.chainId := by rw [hnet, hch]
    have hsym : (toks.filter (fun x => x.symbol == t.symbol)).isEmpty = true := by
      rw [List.isEmpty_iff, List.filter_eq_nil_iff]
      intro x hx hxs
      obtain ⟨x1, x2⟩ := (g2 x).1 hx
      have hm := (R.has _ _ _).1 x2
      rw [← x1] at hm
      exact (hf x hm).1 (by simpa using hxs)
    simp only [applyEvent, State.recordAddErc20Token, g1, hsym, hi, hn, ensure, bind, Except.bind, pure, Except.pure,
      beq_self_eq_true, if_true]

/-- **C26**: whenever it may be accepted, it is accepted (the insertion cannot fail). -/
theorem C26_accepted {log : List Event} {s : State} (h : Run log s) {caller : Principal} {a : AddErc20TokenArg}
    {t : Erc20Token} (hm : MayRegister log caller a t) :
    ∃ s', addErc20Token s caller a = .ok (.addedErc20Token t, s') ∧ Run (log ++ [.addedErc20Token t]) s' ∧
      (∀ u, s'.findErc20TokenByLedgerId u = if u = a.ledgerId then some t else s.findErc20TokenByLedgerId u) := by
  have R := registry_of_run h
  have hins : ∃ m, s.erc20Tokens.tryInsert t.erc20LedgerId t.erc20ContractAddress t.symbol = .ok m := by
    cases hi : s.erc20Tokens.tryInsert t.erc20LedgerId t.erc20ContractAddress t.symbol with
    | ok m => exact ⟨m, rfl⟩
    | error e =>
      exfalso
      unfold DMKM.tryInsert MKM.tryInsert at hi
      split at hi
      · rename_i hc
        obtain ⟨k', v', hh⟩ := (DMKM.containsAlt_eq R.wf).1 hc
        exact (hm.fresh _ ((R.has _ _ _).1 hh)).2.2 rfl
      · split at hi
        · rename_i hc
          obtain ⟨a', ha'⟩ := FMap.contains_eq_true.1 hc
          obtain ⟨⟨k', v'⟩, hv⟩ := R.wf.map.alt_of_key ha'
          have := R.wf.dedup ⟨ha', hv⟩
          simp only at this
          subst this
          exact (hm.fresh ⟨s.evmNetwork, a', v', _⟩ ((R.has _ _ _).1 ⟨ha', hv⟩)).2.1 rfl
        · cases hi
  obtain ⟨m, hins⟩ := hins
  have hok := (C26_accepts_exactly h caller a _ _).2 ⟨t, m, hm, rfl, hins, rfl⟩
  refine ⟨_, hok, ?_, ?_⟩
  · have := hok
    unfold addErc20Token at this
    simp only [Res.bind_ok, Res.pure_ok] at this
    obtain ⟨_, _, _, _, t', _, s1, ha, he⟩ := this
    cases he
    exact .event _ _ _ _ h (Address.parse_lt hm.address) ha
  · intro u
    have w' := DMKM.tryInsert_wf R.wf hins
    obtain ⟨i, tl, hlog, hnet, _⟩ := run_fixed h
    obtain ⟨i', tl', hlog', _, hch⟩ := hm.caller
    rw [hlog] at hlog'; cases hlog'
    have hn : s.evmNetwork = t.chainId := by rw [hnet, hch]
    unfold State.findErc20TokenByLedgerId
    by_cases hu : u = a.ledgerId
    · rw [if_pos hu, hu, ← hm.ledger]
      have : m.getEntry t.erc20LedgerId = some (t.erc20ContractAddress, t.symbol) :=
        (DMKM.getEntry_eq w').2 ((DMKM.tryInsert_has R.wf hins).2 (.inl ⟨rfl, rfl, rfl⟩))
      rw [this]
      simp only [Option.map_some, hn]
    · rw [if_neg hu]
      have : m.getEntry u = s.erc20Tokens.getEntry u := by
        apply Option.ext
        rintro ⟨c, sym⟩
        rw [DMKM.getEntry_eq w', DMKM.getEntry_eq R.wf, DMKM.tryInsert_has R.wf hins]
        constructor
        · rintro (⟨h1, _⟩ | h1)
          · exact absurd (h1.trans hm.ledger) hu
          · exact h1
        · exact .inr
      rw [this]

/-- **C26**: any other registration leaves log and state unchanged. -/
theorem C26_rejected {log : List Event} {s : State} (h : Run log s) {caller : Principal} {a : AddErc20TokenArg}
    (hm : ∀ t, ¬ MayRegister log caller a t) : atomically log s (addErc20Token s caller a) = (log, s) := by
  cases hr : addErc20Token s caller a with
  | error e => rfl
  | ok x =>
    obtain ⟨t, m, h1, _⟩ := (C26_accepts_exactly h caller a x.1 x.2).1 hr
    exact absurd h1 (hm t)

/-- **C26**: registered tokens have pairwise distinct symbols, ledgers and contracts, in every reachable state. -/
theorem C26_distinct {log : List Event} {s : State} (h : replay log = .ok s) :
    (tokensOf log).Pairwise Erc20Token.Apart ∧
      ∀ l c sym, s.erc20Tokens.getEntry l = some (c, sym) ↔ ∃ t ∈ tokensOf log, t.erc20LedgerId = l ∧
        t.erc20ContractAddress = c ∧ t.symbol = sym := by
  have R := registry_of_replay h
  refine ⟨R.apart, ?_⟩
  intro l c sym
  rw [DMKM.getEntry_eq R.wf, R.has]
  constructor
  · intro hh; exact ⟨_, hh, rfl, rfl, rfl⟩
  · rintro ⟨t, ht, rfl, rfl, rfl⟩; rw [← R.chain t ht]; exact ht

end

namespace Example

/-- Registration of another token by the manager. -/
def addDai : AddErc20TokenArg := ⟨11155111, "0x00000000000000000000000000000000000DA100".toList, "ckDAI", ⟨[3, 2]⟩⟩

/-- The hypotheses of C26 are met by a concrete registration after the example history, and C06 speaks about the deposit
and the withdrawal of that history. -/
example : ∃ s, Run log s ∧ MayRegister log manager addDai ⟨.sepolia, 0xda100, "ckDAI", ⟨[3, 2]⟩⟩ ∧
    (∀ t, ¬ MayRegister log alice addDai t) ∧ (∀ t, ¬ MayRegister log manager { addDai with symbol := "ckUSDC" } t) ∧
    .acceptedErc20Deposit deposit2 ∈ log ∧ .acceptedErc20WithdrawalRequest request2 ∈ log := by
  obtain ⟨s, hs, _⟩ := log_run
  refine ⟨s, hs, ⟨⟨initArg, log.tail, rfl, rfl, rfl⟩, rfl, by decide +kernel, ⟨⟨by decide +kernel, by decide +kernel⟩, rfl⟩, rfl, ?_⟩,
    ?_, ?_, by simp [log], by simp [log]⟩
  · intro u hu
    simp only [log, tokensOf, List.mem_singleton] at hu
    subst hu
    exact ⟨by decide +kernel, by decide +kernel, by decide +kernel⟩
  · rintro t ⟨⟨i, tl, h1, h2, _⟩, _⟩
    have : i = initArg := by
      have := congrArg List.head? h1
      simp only [log, List.head?_cons, Option.some.injEq, Event.init.injEq] at this
      exact this.symm
    subst this
    exact absurd h2 (by decide +kernel)
  · rintro t ⟨_, _, _, h2, _, h⟩
    exact (h ⟨.sepolia, usdc, "ckUSDC", usdcLedger⟩ (by simp [log, tokensOf])).1 h2.2.symm

end Example
end EvmMinter
