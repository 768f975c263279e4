import Verif.Spec.Fork
import Verif.Lemmas.Evm
/-!
# Reorganizations
-/

namespace EvmMinter
open Spec Helper

section
variable [Keccak] {minter helper : Address} {good : Address → Prop}

/-! ## Growth of the chain -/

/-- `v'` is `v` after blocks above `k`. -/
structure Onto (k : BlockNumber) (v v' : Evm) : Prop where
  sent : v'.sent = v.sent
  nonce : v.nonce ≤ v'.nonce
  logs : ∀ l ∈ v.logs, l ∈ v'.logs
  newLogs : ∀ l ∈ v'.logs, l ∈ v.logs ∨ k < l.block
  mined : ∀ x ∈ v.mined, x ∈ v'.mined
  newMined : ∀ x ∈ v'.mined, x ∈ v.mined ∨ v.nonce ≤ x.signed.tx.nonce ∧ x.signed ∈ v.sent ∧ x.receipt.transactionHash = x.signed.hash

theorem Onto.refl (k : BlockNumber) (v : Evm) : Onto k v v :=
  ⟨rfl, Nat.le_refl _, fun _ h => h, fun _ h => .inl h, fun _ h => h, fun _ h => .inl h⟩

theorem Onto.trans {k k' : BlockNumber} {v v' v'' : Evm} (hk : k ≤ k') (h : Onto k v v') (h' : Onto k' v' v'') : Onto k v v'' := by
  refine ⟨h'.sent.trans h.sent, Nat.le_trans h.nonce h'.nonce, fun l hl => h'.logs l (h.logs l hl), fun l hl => ?_,
    fun x hx => h'.mined x (h.mined x hx), fun x hx => ?_⟩
  · rcases h'.newLogs l hl with h1 | h1
    · exact h.newLogs l h1
    · exact .inr (Nat.lt_of_le_of_lt hk h1)
  · rcases h'.newMined x hx with h1 | ⟨h1, h2, h3⟩
    · exact h.newMined x h1
    · exact .inr ⟨Nat.le_trans h.nonce h1, by rw [← h.sent]; exact h2, h3⟩

theorem Spec.EvmStep.onto {k : BlockNumber} {v v' : Evm} (h : EvmStep minter helper good v v')
    (hk : ∀ l ∈ v'.logs.drop v.logs.length, k < l.block) : Onto k v v' := by
  cases h with
  | other s _ => exact ⟨rfl, Nat.le_refl _, fun _ h => h, fun _ h => .inl h, fun _ h => h, fun _ h => .inl h⟩
  | deposit env call s x b src _ _ _ _ =>
    refine ⟨rfl, Nat.le_refl _, fun l h => List.mem_append_left _ h, fun l h => ?_, fun _ h => h, fun _ h => .inl h⟩
    rcases List.mem_append.1 h with h | h
    · exact .inl h
    · refine .inr (hk l ?_)
      show l ∈ (v.logs ++ [(⟨b, src, x⟩ : ChainLog)]).drop v.logs.length
      rw [List.drop_left]; exact h
  | mine g s h1 h2 _ _ h5 _ =>
    refine ⟨rfl, Nat.le_succ _, fun _ h => h, fun _ h => .inl h, fun x h => List.mem_append_left _ h, fun x h => ?_⟩
    rcases List.mem_append.1 h with h | h
    · exact .inl h
    · rw [List.mem_singleton] at h
      subst h
      exact .inr ⟨Nat.le_of_eq h2.symm, h1, h5⟩

theorem Spec.InBlock.onto {k : BlockNumber} {v v' : Evm} (h : InBlock minter helper good (k + 1) v v') : Onto k v v' := by
  induction h with
  | start => exact .refl k v
  | step v' v'' _ hs hb ih => exact ih.trans (Nat.le_refl k) (hs.onto fun l hl => by rw [hb l hl]; exact Nat.lt_succ_self k)

theorem chained_onto : ∀ {l : List Evm} {k : BlockNumber} {v : Evm}, Chained minter helper good k v l → ∀ x ∈ l, Onto k v x := by
  intro l
  induction l with
  | nil => intro k v _ x hx; cases hx
  | cons y l ih =>
    intro k v h x hx
    rcases List.mem_cons.1 hx with rfl | hx
    · exact h.1.onto
    · exact h.1.onto.trans (Nat.le_succ k) (ih h.2 x hx)

theorem tip_onto {f : Forking} (h : Chained minter helper good f.height f.final f.head) : Onto f.height f.final f.tip := by
  unfold Forking.tip
  cases hl : f.head.getLast? with
  | none => exact .refl _ _
  | some x => exact chained_onto h x (List.mem_of_getLast? hl)

/-- More is known to the nodes. -/
def Spec.Evm.learn (v : Evm) (x : SignedTx) : Evm := { v with sent := v.sent ++ [x] }

theorem Spec.EvmStep.learn {v v' : Evm} (h : EvmStep minter helper good v v') (x : SignedTx) :
    EvmStep minter helper good (v.learn x) (v'.learn x) := by
  cases h with
  | other s hh => exact EvmStep.other (v.learn x) s hh
  | deposit env call s y b src h1 h2 h3 h4 => exact EvmStep.deposit (v.learn x) env call s y b src h1 h2 h3 h4
  | mine g s h1 h2 h3 h4 h5 h6 => exact EvmStep.mine (v.learn x) g s (List.mem_append_left _ h1) h2 h3 h4 h5 h6

theorem Spec.InBlock.learn {k : BlockNumber} {v v' : Evm} (h : InBlock minter helper good k v v') (x : SignedTx) :
    InBlock minter helper good k (v.learn x) (v'.learn x) := by
  induction h with
  | start => exact .start
  | step v' v'' _ hs hb ih => exact .step _ _ ih (hs.learn x) hb

theorem chained_learn (x : SignedTx) : ∀ {l : List Evm} {k : BlockNumber} {v : Evm}, Chained minter helper good k v l →
    Chained minter helper good k (v.learn x) (l.map fun v => v.learn x) := by
  intro l
  induction l with
  | nil => intro k v _; trivial
  | cons y l ih => intro k v h; exact ⟨h.1.learn x, ih h.2⟩

theorem joint_block {w : World} {k : BlockNumber} {v v' : Evm} (hj : Joint minter helper good w v)
    (h : InBlock minter helper good k v v') : Joint minter helper good w v' := by
  induction h with
  | start => exact hj
  | step v' v'' _ hs _ ih => exact .chain _ _ _ ih hs

/-! ## What tasks and answers refer to -/

/-- A query is about blocks up to `b`. -/
structure Query.Below (q : Query) (b : BlockNumber) : Prop where
  current : q.current.stop ≤ b
  rest : ∀ r ∈ q.rest, r.stop ≤ b
  chunks : q.chunks.range.stop ≤ b

omit [Keccak] in
theorem Query.Below.mono {q : Query} {b b' : BlockNumber} (h : q.Below b) (hb : b ≤ b') : q.Below b' :=
  ⟨Nat.le_trans h.current hb, fun r hr => Nat.le_trans (h.rest r hr) hb, Nat.le_trans h.chunks hb⟩

omit [Keccak] in
theorem partitionAt_below {r : BlockRange} {mid : BlockNumber} {x y : Option BlockRange} (h : r.partitionAt mid = .ok (x, y)) :
    (∀ z, x = some z → z.stop ≤ r.stop) ∧ ∀ z, y = some z → z.stop ≤ r.stop := by
  unfold BlockRange.partitionAt at h
  split at h
  · cases h
    exact ⟨by simp, by rintro z ⟨⟩; exact Nat.le_refl _⟩
  · split at h
    · cases h
      exact ⟨by rintro z ⟨⟩; exact Nat.le_refl _, by simp⟩
    · rename_i h1 h2
      simp only [Res.bind_ok, Res.expect_ok, Res.pure_ok, Prod.mk.injEq] at h
      obtain ⟨p, hp, rfl, rfl⟩ := h
      rw [csub_eq_some] at hp
      refine ⟨?_, by rintro z ⟨⟩; exact Nat.le_refl _⟩
      rintro z ⟨⟩
      simp only
      womega

omit [Keccak] in
theorem halves_below {r : BlockRange} {x y : Option BlockRange} (h : r.halves = .ok (x, y)) :
    (∀ z, x = some z → z.stop ≤ r.stop) ∧ ∀ z, y = some z → z.stop ≤ r.stop := by
  unfold BlockRange.halves at h
  split at h
  · cases h
    exact ⟨by rintro z ⟨⟩; exact Nat.le_refl _, by simp⟩
  · simp only [Res.bind_ok] at h
    obtain ⟨_, _, _, _, _, _, h⟩ := h
    exact partitionAt_below h

omit [Keccak] in
theorem chunks_below {c c' : Chunks} {o : Option BlockRange} (h : c.next = .ok (o, c')) :
    c'.range.stop ≤ c.range.stop ∧ ∀ r, o = some r → r.stop ≤ c.range.stop := by
  unfold Chunks.next at h
  split at h
  · cases h; exact ⟨Nat.le_refl _, by simp⟩
  · split at h
    · cases h; exact ⟨Nat.le_refl _, by simp⟩
    · simp only [Res.bind_ok] at h
      obtain ⟨⟨x, y⟩, hp, h⟩ := h
      obtain ⟨h1, h2⟩ := partitionAt_below hp
      cases x <;> cases y <;> simp only [Res.pure_ok, reduceCtorEq, Prod.mk.injEq] at h
      · obtain ⟨rfl, rfl⟩ := h
        exact ⟨Nat.le_refl _, by rintro r ⟨⟩; exact h2 _ rfl⟩
      · obtain ⟨rfl, rfl⟩ := h
        exact ⟨Nat.le_refl _, by rintro r ⟨⟩; exact h1 _ rfl⟩
      · obtain ⟨rfl, rfl⟩ := h
        exact ⟨h2 _ rfl, by rintro r ⟨⟩; exact h1 _ rfl⟩

omit [Keccak] in
theorem nextChunk_below {a : Address} {l : List Topic} {c : Chunks} {q : Query} {b : BlockNumber} (hc : c.range.stop ≤ b)
    (h : nextChunk a l c = .ok (some q)) : q.Below b := by
  simp only [nextChunk, Res.bind_ok] at h
  obtain ⟨⟨x, c'⟩, h1, h⟩ := h
  obtain ⟨k1, k2⟩ := chunks_below h1
  cases x <;> simp only [Res.pure_ok, reduceCtorEq, Option.some.injEq] at h
  subst h
  exact ⟨Nat.le_trans (k2 _ rfl) hc, by simp, Nat.le_trans k1 hc⟩

omit [Keccak] in
theorem loop_below {q q' : Query} {l : List BlockRange} {b : BlockNumber} (hq : q.Below b) (hl : ∀ r ∈ l, r.stop ≤ b)
    (h : q.loop l = .ok (some q')) : q'.Below b := by
  cases l with
  | nil => exact nextChunk_below hq.chunks h
  | cons r t =>
    simp only [Query.loop, Except.ok.injEq, Option.some.injEq] at h
    subst h
    exact ⟨hl r (by simp), fun r hr => hl r (by simp [hr]), hq.chunks⟩

omit [Keccak] in
theorem next_below {q q' : Query} {a : LogsAnswer} {b : BlockNumber} (hq : q.Below b) (h : q.next a = .ok (some q')) : q'.Below b := by
  cases a with
  | logs l => exact loop_below hq hq.rest h
  | failed => cases h
  | tooLarge =>
    simp only [Query.next] at h
    split at h
    · exact loop_below hq hq.rest h
    · simp only [Res.bind_ok] at h
      obtain ⟨⟨x, y⟩, h1, h⟩ := h
      obtain ⟨k1, k2⟩ := halves_below h1
      have hrest : ∀ r ∈ (match y with
          | none => q.rest
          | some r =>
            match q.rest with
            | n :: t => r.joinWith n :: t
            | [] => [r]), r.stop ≤ b := by
        cases y with
        | none => exact hq.rest
        | some r =>
          have hr : r.stop ≤ b := Nat.le_trans (k2 r rfl) hq.current
          have hR := hq.rest
          cases hqr : q.rest with
          | nil => intro z hz; rw [List.mem_singleton.1 hz]; exact hr
          | cons m t =>
            rw [hqr] at hR
            intro z hz
            rcases List.mem_cons.1 hz with rfl | hz
            · exact Nat.max_le.2 ⟨hr, hR m (by simp)⟩
            · exact hR z (by simp [hz])
      cases x with
      | none => exact loop_below hq hrest h
      | some l =>
        refine loop_below hq ?_ h
        intro r hr
        rcases List.mem_cons.1 hr with rfl | hr
        · exact Nat.le_trans (k1 _ rfl) hq.current
        · exact hrest r hr

omit [Keccak] in
theorem startQuery_below {s : State} {last : BlockNumber} {size : Nat} {q : Query} (h : s.startQuery last size = .ok (some q)) : q.Below last := by
  simp only [State.startQuery, BlockRange.intoChunks, Res.bind_ok, Res.pure_ok] at h
  obtain ⟨sc, _, ch, ⟨_, _, rfl⟩, h⟩ := h
  exact nextChunk_below (Nat.le_refl _) h

/-- The task is about final blocks and about transactions that no newer block can contain. -/
def Task.Settled (f : Forking) (log : List Event) : Task → Prop
  | .ext (.scrape (.querying q)) => q.Below f.height
  | .ext (.retrieveReceipts m) => ∀ h i, m.get h = some i →
      ∃ j x, .signedTransaction j x ∈ log ∧ x.hash = h ∧ x.tx.nonce < f.final.nonce
  | _ => True

def Next.Settled (f : Forking) (log : List Event) : Next → Prop
  | .await t => t.Settled f log
  | .finish _ => True

theorem Task.Settled.mono {f f' : Forking} {log log' : List Event} (h1 : f.height ≤ f'.height) (h2 : f.final.nonce ≤ f'.final.nonce)
    (h3 : ∀ e ∈ log, e ∈ log') {t : Task} (h : t.Settled f log) : t.Settled f' log' := by
  cases t with
  | ledger t => trivial
  | ext t =>
    cases t <;> try trivial
    case scrape t =>
      cases t with
      | observing k => trivial
      | querying q => exact Query.Below.mono h h1
    case retrieveReceipts m =>
      intro hash i hi
      obtain ⟨j, x, g1, g2, g3⟩ := h hash i hi
      exact ⟨j, x, h3 _ g1, g2, Nat.lt_of_lt_of_le g3 h2⟩

theorem Task.settled_of_running {f : Forking} {log : List Event} {t : Task} (h1 : TaskType.retrieveEth ∉ t.running)
    (h2 : TaskType.scrapLogs ∉ t.running) : t.Settled f log := by
  cases t with
  | ledger t => trivial
  | ext t => cases t <;> first | trivial | (simp [Task.running] at h1 h2)

theorem Next.settled_of_running {f : Forking} {log : List Event} {n : Next} (h1 : TaskType.retrieveEth ∉ n.running)
    (h2 : TaskType.scrapLogs ∉ n.running) : n.Settled f log := by
  cases n with
  | finish r => trivial
  | await t => exact Task.settled_of_running h1 h2

/-- The answer is about final blocks. -/
def Faithful (f : Forking) (margin : Nat) : ExtTask → ExtAnswer → Prop
  | .scrape (.observing _), .block (some n) => n ≤ f.height + margin
  | .scrape (.querying _), .logs l => f.final.Tells (.logs l)
  | .retrieveFinalizedCount, .count (some n) => n ≤ f.final.nonce
  | .retrieveReceipts _, .receipts l => f.final.Tells (.receipts l)
  | _, _ => True

theorem Faithful.mono {f f' : Forking} {margin : Nat} {k : BlockNumber} (h1 : f.height ≤ f'.height) (h2 : Onto k f.final f'.final)
    {t : ExtTask} {a : ExtAnswer} (h : Faithful f margin t a) : Faithful f' margin t a := by
  unfold Faithful at h ⊢
  split at h
  · exact Nat.le_trans h (Nat.add_le_add_right h1 _)
  · rename_i q l
    cases l with
    | logs l =>
      intro e he
      obtain ⟨x, hx, hm⟩ := h e he
      exact ⟨x, h2.logs x hx, hm⟩
    | tooLarge => trivial
    | failed => trivial
  · exact Nat.le_trans h h2.nonce
  · intro r hr
    obtain ⟨x, hx, hm⟩ := h r hr
    exact ⟨x, h2.mined x hx, hm⟩
  · trivial

/-! ## The configuration -/

theorem careful_height {depth : Nat} {w : World} (h : Reachable w) (hn : NonceNeverLowered w.mem.m.log)
    (hc : Careful depth w.mem.m.log) : w.mem.m.st.blockHeight = .finalized ∨ depth ≤ w.mem.m.st.evmNetwork.margin := by
  have R := run_of_reachable h hn
  rcases hc with hc | ⟨hc, hu⟩
  · obtain ⟨a, t, h1, h2⟩ := run_network R
    exact .inr (by rw [h2]; exact hc a (by rw [h1]; simp))
  · left
    obtain ⟨s₀, h1, _, _, h4⟩ := run_replay R
    rw [h4]
    show s₀.blockHeight = .finalized
    revert hc hu
    refine replay_induct (P := fun log s => (∀ a, .init a ∈ log → a.blockHeight = .finalized) →
      (∀ u b, .upgrade u ∈ log → u.blockHeight = some b → b = .finalized) → s.blockHeight = .finalized) ?_ ?_ h1
    · intro a s hs ha _
      have : s.blockHeight = a.blockHeight := by
        simp only [State.ofInit, bind_ok', pure_ok', orErr_ok, u256OfNat_some] at hs
        obtain ⟨n, _, w, _, f, _, hp, _, l, _, p, _, fs, _, d, _, wf, _, _, hv, rfl⟩ := hs
        rfl
      rw [this]; exact ha a (by simp)
    · intro log s e s' _ ih ha hc hu
      have IH := ih (fun a h => hc a (List.mem_append_left _ h)) fun u b h => hu u b (List.mem_append_left _ h)
      by_cases he : ∃ u, e = .upgrade u
      · obtain ⟨u, rfl⟩ := he
        simp only [applyEvent] at ha
        split at ha
        · rename_i s1 h1
          cases ha
          obtain ⟨_, _, rfl, _⟩ := upgrade_ok h1
          show u.blockHeight.getD s.blockHeight = .finalized
          cases hb : u.blockHeight with
          | none => exact IH
          | some b => exact hu u b (by simp) hb
        · cases ha
      · have := (applyEvent_frame ha).2.1 fun u hh => he ⟨u, hh⟩
        exact (congrArg UpgradableConfig.blockHeight this).trans IH

theorem network_kept {w w' : World} (h : Reachable w) (hs : Step w w') (hn : NonceNeverLowered w'.mem.m.log) :
    w'.mem.m.st.evmNetwork = w.mem.m.st.evmNetwork := by
  obtain ⟨es, he⟩ := (Step.grows h hs).log
  have hn0 : NonceNeverLowered w.mem.m.log := nonceNeverLowered_prefix (he ▸ hn)
  obtain ⟨a, t, h1, h2⟩ := run_network (run_of_reachable h hn0)
  obtain ⟨a', t', h1', h2'⟩ := run_network (run_of_reachable (.step _ _ h hs) hn)
  rw [he, h1, List.cons_append, List.cons.injEq] at h1'
  cases h1'.1
  rw [h2, h2']

omit [Keccak] in
theorem Spec.Careful.prefix {depth : Nat} {l l' : List Event} (h : Careful depth (l ++ l')) : Careful depth l := by
  rcases h with h | ⟨h1, h2⟩
  · exact .inl fun a ha => h a (List.mem_append_left _ ha)
  · exact .inr ⟨fun a ha => h1 a (List.mem_append_left _ ha), fun u b hu => h2 u b (List.mem_append_left _ hu)⟩

theorem Spec.NoCollision.prefix {l l' : List Event} (h : NoCollision (l ++ l')) : NoCollision l :=
  fun i j x y h1 h2 h3 => h i j x y (List.mem_append_left _ h1) (List.mem_append_left _ h2) h3

/-! ## Steps of the minter -/

theorem start_settled {c c' : Mem} {msg : Message} {now : Nat} {n : Next} (h : msg.run c now = .ok (c', n)) (f : Forking) (l : List Event) :
    n.Settled f l := by
  cases msg <;> simp only [Message.run] at h
  case mint =>
    unfold Mem.startMint at h
    split at h
    · cases h; trivial
    · rcases Mem.mintLoop_next h with rfl | ⟨_, _, _, _, _, _, rfl⟩ <;> trivial
  case reimbursement =>
    unfold Mem.startReimbursement at h
    split at h
    · cases h; trivial
    · rcases Mem.reimburseLoop_next h with rfl | ⟨_, _, _, _, rfl⟩ <;> trivial
  case retrieve g =>
    unfold Mem.startRetrieve at h
    split at h
    · cases h; trivial
    · split at h
      · cases h; trivial
      · split at h
        · cases h; trivial
        · split at h <;> (cases h; trivial)
  case scrape => split at h <;> (cases h; trivial)
  case gas => split at h <;> (cases h; trivial)
  case withdrawNative =>
    obtain ⟨c1, _, h⟩ := Mem.startNative_cases h
    rcases h with ⟨_, rfl, rfl⟩ | ⟨_, _, _, _, rfl, ⟨_, _, _, _, rfl⟩ | ⟨_, rfl⟩⟩ <;> trivial
  case withdrawErc20 =>
    have gas : ∀ {c c' : Mem} {q : Erc20Call} {g : Option GasFeeEstimate} {now : Nat} {n : Next},
        c.onErc20Gas q g now = .ok (c', n) → n.Settled f l := by
      intro c c' q g now n h
      rcases Mem.onErc20Gas_cases h with ⟨_, _, rfl⟩ | ⟨_, _, _, ⟨_, _, _, _, rfl⟩ | ⟨_, rfl⟩⟩ <;> trivial
    obtain ⟨c1, _, h⟩ := Mem.startErc20_cases h
    rcases h with ⟨_, rfl, rfl⟩ | ⟨_, _, _, _, _, ⟨_, _, h⟩ | ⟨_, h⟩ | ⟨_, h, rfl⟩⟩
    · trivial
    · exact gas h
    · exact gas h
    · trivial
  case addToken =>
    simp only [Res.bind_ok, Res.pure_ok] at h
    obtain ⟨x, _, h⟩ := h
    cases h; trivial

/-- The transactions to finalize are signed and have a nonce below the count. -/
theorem sentToFinalize_signed {log : List Event} {s : State} (h : Run log s) (hn : NonceNeverLowered log) {count : TransactionCount}
    {m : FMap Hash LedgerBurnIndex} (hm : s.txs.sentToFinalize count = .ok m) {hash : Hash} {i : LedgerBurnIndex}
    (hi : m.get hash = some i) : ∃ j x, .signedTransaction j x ∈ log ∧ x.hash = hash ∧ x.tx.nonce < count := by
  obtain ⟨inv, tl, _⟩ := run_txInv h hn
  obtain ⟨r, h1, h2, h3⟩ := MKM.iter_total inv.sw
  unfold Transactions.sentToFinalize at hm
  rw [h1] at hm
  rw [toFinalizeLoop_ok _ _ _ hm hash i] at hi
  simp only [FMap.get_empty, reduceCtorEq, false_or, List.mem_flatMap, List.mem_filter, List.mem_map, Prod.mk.injEq, decide_eq_true_eq] at hi
  obtain ⟨x, ⟨⟨n, j, l⟩, ⟨hr, hlt⟩, y, hy, rfl, rfl⟩, hh⟩ := hi
  have hs := (h2 _ _ _).1 hr
  obtain ⟨k, hk⟩ := tl.sentLog _ _ _ _ hs hy
  exact ⟨k, _, hk, hh, by rw [(inv.sN _ _ _ hs).2.2 y hy]; exact hlt⟩

/-- The block that the scraper goes up to is final. -/
theorem onBlock_settled {x y : Scraper} {k : Nat} {b : Option BlockNumber} {f : Forking}
    (h : x.onBlock k b = .ok y) (hf : ∀ n, b = some n → n ≤ f.height + x.m.st.evmNetwork.margin)
    (hx : ∀ b, x.lastObserved = some b → b ≤ f.height) :
    (∀ b, y.lastObserved = some b → b ≤ f.height) ∧ ∀ q, y.task = some (.querying q) → q.Below f.height := by
  have hobs : ∀ n, x.observe b = some n → n ≤ f.height := by
    intro n hn
    unfold Scraper.observe at hn
    cases b with
    | none => exact hx n hn
    | some m =>
      have hm := hf m rfl
      simp only at hn
      split at hn
      · rename_i h0
        cases hn
        rw [h0] at hm; exact hm
      · rw [csub_eq_some] at hn
        womega
  simp only [Scraper.onBlock] at h
  split at h
  · rename_i n hn
    simp only [Res.bind_ok, Res.pure_ok] at h
    obtain ⟨q, hq, rfl⟩ := h
    refine ⟨fun b hb => hobs b (by rw [← hb]), fun q' hq' => ?_⟩
    cases q with
    | none => cases hq'
    | some q =>
      cases hq'
      exact (startQuery_below hq).mono (hobs n hn)
  · rename_i hn
    split at h <;> cases h
    · exact ⟨fun b hb => hobs b (by rw [← hb]), by simp⟩
    · exact ⟨fun b hb => hobs b (by rw [← hb]), by simp⟩

theorem onLogs_settled {x y : Scraper} {q : Query} {a : LogsAnswer} {f : Forking} (h : x.onLogs q a = .ok y) (hq : q.Below f.height) :
    y.lastObserved = x.lastObserved ∧ ∀ q, y.task = some (.querying q) → q.Below f.height := by
  simp only [Scraper.onLogs, Res.bind_ok, Res.pure_ok] at h
  obtain ⟨m, _, q', hq', rfl⟩ := h
  refine ⟨rfl, fun r hr => ?_⟩
  cases q' with
  | none => cases hr
  | some q' =>
    cases hr
    exact next_below hq hq'

theorem retrieveFinalize_settled (c : Mem) (f : Forking) (l : List Event) : c.retrieveFinalize.2.Settled f l := by
  unfold Mem.retrieveFinalize; split <;> trivial

theorem retrieveSend_settled {c c' : Mem} {count : Option TransactionCount} {n : Next} (h : c.retrieveSend count = .ok (c', n))
    (f : Forking) (l : List Event) : n.Settled f l := by
  have fin := retrieveFinalize_settled c f l
  unfold Mem.retrieveSend at h
  split at h
  · simp only [Except.ok.injEq] at h
    rw [h] at fin; exact fin
  · simp only [Res.bind_ok] at h
    obtain ⟨b, hb, h⟩ := h
    split at h
    · simp only [Res.pure_ok] at h
      rw [h] at fin; exact fin
    · cases h; trivial

/-- After a faithful answer the minter goes on with final blocks. -/
theorem answer_settled {c c' : Mem} {t : ExtTask} {a : ExtAnswer} {now : Nat} {n : Next} {f : Forking}
    (h : t.resume c now a = some (.ok (c', n))) (hR : Run c.m.log c.m.st) (hn : NonceNeverLowered c.m.log)
    (ht : (Task.ext t).Settled f c.m.log) (ha : Faithful f c.m.st.evmNetwork.margin t a)
    (hx : ∀ b, c.lastObserved = some b → b ≤ f.height) :
    n.Settled f c'.m.log ∧ ∀ b, c'.lastObserved = some b → b ≤ f.height := by
  have seen : TaskType.scrapLogs ∉ (Task.ext t).running → ∀ b, c'.lastObserved = some b → b ≤ f.height := by
    intro hs b hb
    rw [((ExtTask.resume_locks h).seen hs).1] at hb
    exact hx b hb
  have step : ∀ {x : Scraper}, c.scraperStep x = (c', n) →
      ((∀ b, x.lastObserved = some b → b ≤ f.height) ∧ ∀ q, x.task = some (.querying q) → q.Below f.height) →
      n.Settled f c'.m.log ∧ ∀ b, c'.lastObserved = some b → b ≤ f.height := by
    rintro x hxs ⟨k1, k2⟩
    unfold Mem.scraperStep at hxs
    simp only at hxs
    split at hxs
    · rename_i t' ht'
      cases hxs
      refine ⟨?_, k1⟩
      cases t' with
      | observing k => trivial
      | querying q => exact k2 q ht'
    · cases hxs; exact ⟨trivial, k1⟩
  unfold ExtTask.resume at h
  split at h <;> simp only [Option.some.injEq, reduceCtorEq] at h
  · simp only [Res.bind_ok, Res.pure_ok] at h
    obtain ⟨x, h1, h2⟩ := h
    refine step h2 (onBlock_settled h1 ?_ hx)
    rintro n rfl
    exact ha
  · simp only [Res.bind_ok, Res.pure_ok] at h
    obtain ⟨x, h1, h2⟩ := h
    obtain ⟨k1, k2⟩ := onLogs_settled h1 ht
    exact step h2 ⟨fun b hb => hx b (by rw [k1] at hb; exact hb), k2⟩
  · refine ⟨?_, seen (by simp [Task.running])⟩
    cases h; trivial
  · refine ⟨?_, seen (by simp [Task.running])⟩
    simp only [Except.ok.injEq, Mem.onRetrieveGas] at h
    split at h <;> (cases h; trivial)
  · refine ⟨?_, seen (by simp [Task.running])⟩
    simp only [Mem.retrieveCreate, Res.bind_ok] at h
    obtain ⟨m1, h1, m2, h2, _, _, h⟩ := h
    split at h
    · exact retrieveSend_settled h f _
    · cases h; trivial
  · refine ⟨?_, seen (by simp [Task.running])⟩
    simp only [Mem.onSignatures, Res.bind_ok] at h
    obtain ⟨m1, h1, h⟩ := h
    exact retrieveSend_settled h f _
  · refine ⟨?_, seen (by simp [Task.running])⟩
    simp only [Except.ok.injEq] at h
    have := retrieveFinalize_settled c f c'.m.log
    rw [h] at this; exact this
  · refine ⟨?_, seen (by simp [Task.running])⟩
    unfold Mem.onFinalizedCount at h
    split at h
    · cases h; trivial
    · rename_i cnt
      simp only [Res.bind_ok] at h
      obtain ⟨m, hm, h⟩ := h
      split at h
      · simp only [Mem.onReceipts, Res.bind_ok, Res.pure_ok] at h
        obtain ⟨m1, h1, h⟩ := h
        cases h; trivial
      · cases h
        intro hash i hi
        obtain ⟨j, x, g1, g2, g3⟩ := sentToFinalize_signed hR hn hm hi
        exact ⟨j, x, g1, g2, Nat.lt_of_lt_of_le g3 ha⟩
  · refine ⟨?_, seen (by simp [Task.running])⟩
    simp only [Mem.onReceipts, Res.bind_ok, Res.pure_ok] at h
    obtain ⟨m1, h1, h⟩ := h
    cases h; trivial
  · refine ⟨?_, seen (by simp [Task.running])⟩
    rcases Mem.onErc20Gas_cases h with ⟨_, _, rfl⟩ | ⟨_, _, _, ⟨_, _, _, _, rfl⟩ | ⟨_, rfl⟩⟩ <;> trivial

/-- What is told about an answer that arrives. -/
theorem told_of_faithful {w : World} {f : Forking} {pre post : List Pending} {id : Nat} {t : ExtTask} {o : Option LedgerAnswer}
    {a : ExtAnswer} {now margin : Nat} {c : Mem} {n : Next} (ht : w.tasks = pre ++ ⟨id, .ext t, o⟩ :: post)
    (hr : t.resume w.mem now a = some (.ok (c, n))) (hf : Faithful f margin t a) :
    Told f.final w (w.advance pre post id c n) := by
  refine .inr ⟨pre, post, id, t, o, a, now, c, n, ht, hr, rfl, ?_⟩
  cases a <;> try trivial
  case logs l =>
    cases t <;> simp only [ExtTask.resume, reduceCtorEq] at hr
    rename_i t
    cases t <;> simp only [reduceCtorEq] at hr
    exact hf
  case receipts l =>
    cases t <;> simp only [ExtTask.resume, reduceCtorEq] at hr
    exact hf

end
end EvmMinter
