import Verif.Lemmas.Fork
import Verif.Props.C66
import Verif.Spec.ExampleFork
/-!
# C73: only final facts are acted upon, even when the chain reorganizes
-/

namespace EvmMinter
open Spec Helper

section
variable [Keccak] {minter helper : Address} {good : Address → Prop} {depth : Nat}

/-- What holds of the minter and a chain with reorganizations. -/
structure ForkInv (minter helper : Address) (good : Address → Prop) (depth : Nat) (w : World) (f : Forking) : Prop where
  joint : Joint minter helper good w f.final
  chained : Chained minter helper good f.height f.final f.head
  short : f.head.length ≤ depth
  observed : ∀ b, w.mem.lastObserved = some b → b ≤ f.height
  tasks : ∀ p ∈ w.tasks, p.task.Settled f w.mem.m.log
  replies : ∀ x ∈ f.replies, Faithful f w.mem.m.st.evmNetwork.margin x.2.1 x.2.2

/-- A truthful answer about a task that concerns final blocks is true of the final blocks. -/
theorem faithful_of_tells {w : World} {f : Forking} (I : ForkInv minter helper good depth w f) (hn : NonceNeverLowered w.mem.m.log)
    (hc : NoCollision w.mem.m.log) (hd : Careful depth w.mem.m.log) {id : Nat} {t : ExtTask} {o : Option LedgerAnswer} {a : ExtAnswer}
    (hp : ⟨id, .ext t, o⟩ ∈ w.tasks) (ha : f.Tells w.mem.m.st t a) : Faithful f w.mem.m.st.evmNetwork.margin t a := by
  have T := tip_onto I.chained
  have J := jointInv I.joint hn
  have S := I.tasks _ hp
  unfold Faithful
  split
  · rename_i k n
    obtain ⟨h1, h2⟩ := ha
    rcases careful_height I.joint.reachable hn hd with h3 | h3
    · exact Nat.le_trans (h2 h3) (Nat.le_add_right _ _)
    · exact Nat.le_trans h1 (Nat.add_le_add_left (Nat.le_trans I.short h3) _)
  · rename_i q l
    cases l with
    | tooLarge => trivial
    | failed => trivial
    | logs l =>
      intro e he
      obtain ⟨x, hx, hm, _, hstop⟩ := ha e he
      rcases T.newLogs x hx with h1 | h1
      · exact ⟨x, h1, hm⟩
      · have hS : q.current.stop ≤ f.height := S.current
        exact absurd (Nat.lt_of_lt_of_le h1 (Nat.le_trans hstop hS)) (Nat.lt_irrefl _)
  · exact ha
  · rename_i m l
    obtain ⟨hlen, ha⟩ := ha
    intro r hr
    obtain ⟨k, hk, hkl⟩ := List.mem_iff_getElem.1 hr
    have hkm : k < m.toList.length := by rw [← hlen]; exact hk
    have hz : (m.toList[k], l[k]) ∈ m.toList.zip l := by
      rw [List.mem_iff_getElem]
      refine ⟨k, by rw [List.length_zip]; exact Nat.lt_min.2 ⟨hkm, hk⟩, ?_⟩
      rw [List.getElem_zip]
    rw [hkl] at hz
    obtain ⟨g1, x, hx, g2⟩ := ha m.toList[k].1 m.toList[k].2 r hz
    have hget : m.get m.toList[k].1 = some m.toList[k].2 := FMap.mem_toList.1 (List.getElem_mem hkm)
    obtain ⟨j, y, hy1, hy2, hy3⟩ := S _ _ hget
    rcases T.newMined x hx with h1 | ⟨h1, h2, h3⟩
    · exact ⟨x, h1, g2⟩
    · obtain ⟨i, hi⟩ := J.signed _ h2
      have : x.signed = y := hc i j _ _ hi hy1 (by rw [← h3, g2, g1, hy2])
      rw [this] at h1
      exact absurd (Nat.lt_of_lt_of_le hy3 h1) (Nat.lt_irrefl _)
  · trivial

/-- A step without an answer claims nothing about the chain. -/
theorem unclaimed {w w' : World} (hr : Reachable w) (hs : Step w w') (hno : ¬ Answered w w') : ∀ e ∈ w'.since w, ¬ e.Claims := by
  have origin : ∀ e : Event, e.Claims → e.origin = .scrape ∨ e.origin = .retrieve := by
    rintro e (⟨d, hd⟩ | ⟨i, r, rfl⟩)
    · cases e <;> first | exact .inl rfl | cases hd
    · exact .inr rfl
  have grew : ∀ {o : Origin}, Grew o w.mem.m w'.mem.m → o ≠ .scrape → o ≠ .retrieve → ∀ e ∈ w'.since w, ¬ e.Claims := by
    intro o hg h1 h2 e he hcl
    obtain ⟨es, k1, k2⟩ := hg.adds
    rw [World.since, k1, List.drop_left] at he
    rcases origin e hcl with h | h
    · exact h1 ((k2 e he).symm.trans h)
    · exact h2 ((k2 e he).symm.trans h)
  have same : w'.mem.m = w.mem.m → ∀ e ∈ w'.since w, ¬ e.Claims := by
    intro h e he
    rw [World.since, h, List.drop_length] at he; cases he
  have ledgerOrigin : ∀ t : LedgerTask, t.origin ≠ .scrape ∧ t.origin ≠ .retrieve := by
    intro t; cases t <;> simp [LedgerTask.origin]
  have clean : ∀ {t : Task} {c : Mem}, t.cleanup w.mem = .ok c → w'.mem = c → ∀ e ∈ w'.since w, ¬ e.Claims := by
    intro t c hc h
    cases t with
    | ledger t => exact grew (o := t.origin) (by rw [h]; exact Task.cleanup_grew hc) (ledgerOrigin t).1 (ledgerOrigin t).2
    | ext t => exact same (by rw [h]; cases t <;> simp only [Task.cleanup, Except.ok.injEq] at hc <;> (subst hc; rfl))
  cases hs with
  | start msg now c n hty hrun =>
    rcases Message.run_news hrun with h | ⟨_, _, t, rfl, _⟩
    · exact same h
    · exact grew (Message.run_grew hrun) (by simp [Message.origin]) (by simp [Message.origin])
  | startTrap msg now e _ _ => exact same rfl
  | execute pre post id t ht _ => exact same rfl
  | refuse pre post id t e ht _ => exact same rfl
  | reject pre post id t ht => exact same rfl
  | deliver pre post id t a now c n ht hrun => exact grew (LedgerTask.resume_grew hrun) (ledgerOrigin t).1 (ledgerOrigin t).2
  | deliverTrap pre post id t a now e c ht _ hc => exact clean hc rfl
  | kill pre post id t a c ht hc => exact clean hc rfl
  | answer pre post id t o a now c n ht hty hrun => exact absurd ⟨pre, post, id, t, o, a, now, c, n, ht, hty, hrun, rfl⟩ hno
  | answerTrap pre post id t o a now e c ht _ _ hc => exact clean hc rfl
  | killExt pre post id t o c ht hc => exact clean hc rfl
  | foreign call _ => exact same rfl
  | upgrade arg log s ht hp =>
    obtain ⟨_, es, h1, h2⟩ := postUpgrade_grew hp
    intro e he hcl
    have he : e ∈ log.drop w.mem.m.log.length := he
    rw [h1, List.drop_left] at he
    rcases origin e hcl with h | h <;> (rw [h2 e he] at h; cases h)

/-- After a step without an answer, tasks and observations are as before or about nothing. -/
theorem other_settled {w w' : World} (hr : Reachable w) (hs : Step w w') (hno : ¬ Answered w w') {f : Forking}
    (ht : ∀ p ∈ w.tasks, p.task.Settled f w.mem.m.log) (hx : ∀ b, w.mem.lastObserved = some b → b ≤ f.height) :
    (∀ p ∈ w'.tasks, p.task.Settled f w'.mem.m.log) ∧ ∀ b, w'.mem.lastObserved = some b → b ≤ f.height := by
  have I : ∀ p ∈ w.tasks, p.task.Settled f w'.mem.m.log := fun p hp =>
    (ht p hp).mono (Nat.le_refl _) (Nat.le_refl _) (Step.grows hr hs).mem_log
  have others : ∀ {pre post : List Pending} {p : Pending}, w.tasks = pre ++ p :: post → ∀ q ∈ pre ++ post, q.task.Settled f w'.mem.m.log := by
    intro pre post p ht q hq
    refine I q ?_
    rw [ht]
    rcases List.mem_append.1 hq with hq | hq
    · simp [hq]
    · simp [hq]
  have adv : ∀ {pre post : List Pending} {id : Nat} {n : Next} {l : List Event}, (∀ q ∈ pre ++ post, q.task.Settled f l) → n.Settled f l →
      ∀ q ∈ pre ++ n.pending id ++ post, q.task.Settled f l := by
    intro pre post id n l h1 h2 q hq
    simp only [List.mem_append] at hq
    rcases hq with (hq | hq) | hq
    · exact h1 q (by simp [hq])
    · cases n with
      | finish r => cases hq
      | await t =>
        simp only [Next.pending, List.mem_singleton] at hq
        subst hq; exact h2
    · exact h1 q (by simp [hq])
  have ledger : ∀ {pre post : List Pending} {id : Nat} {t : LedgerTask} {a a' : Option LedgerAnswer},
      w.tasks = pre ++ ⟨id, .ledger t, a⟩ :: post → ∀ q ∈ pre ++ ⟨id, .ledger t, a'⟩ :: post, q.task.Settled f w'.mem.m.log := by
    intro pre post id t a a' ht q hq
    rcases List.mem_append.1 hq with hq | hq
    · exact I q (by rw [ht]; simp [hq])
    · rcases List.mem_cons.1 hq with rfl | hq
      · trivial
      · exact I q (by rw [ht]; simp [hq])
  have clean : ∀ {t : Task} {c : Mem}, t.cleanup w.mem = .ok c → ∀ b, c.lastObserved = some b → b ≤ f.height := by
    intro t c hc b hb
    by_cases hsc : TaskType.scrapLogs ∈ t.running
    · cases t with
      | ledger t => cases t <;> simp [Task.running] at hsc
      | ext t =>
        cases t <;> simp only [Task.cleanup, Except.ok.injEq] at hc <;> (subst hc; exact hx b hb)
    · rw [((Task.cleanup_locks hc).seen hsc).1] at hb
      exact hx b hb
  have ledgerRun : ∀ t : LedgerTask, TaskType.scrapLogs ∉ (Task.ledger t).running ∧ TaskType.retrieveEth ∉ (Task.ledger t).running := by
    intro t; cases t <;> simp [Task.running]
  cases hs with
  | start msg now c n hty hrun =>
    refine ⟨adv (pre := w.tasks) (post := []) (by rw [List.append_nil]; exact I) (start_settled hrun f _), fun b hb => ?_⟩
    have hb : c.lastObserved = some b := hb
    by_cases hm : msg = .scrape
    · subst hm
      simp only [Message.run] at hrun
      split at hrun
      · cases hrun; exact hx b hb
      · rename_i c1 hc
        cases hrun
        exact hx b (by rw [← (Mem.acquire_seen hc).1]; exact hb)
    · rw [(Message.run_seen hrun hm).2.1] at hb
      exact hx b hb
  | startTrap msg now e _ _ => exact ⟨by simpa [World.drop, World.begin] using I, hx⟩
  | execute pre post id t ht _ => exact ⟨ledger ht, hx⟩
  | refuse pre post id t e ht _ => exact ⟨ledger ht, hx⟩
  | reject pre post id t ht => exact ⟨ledger ht, hx⟩
  | deliver pre post id t a now c n ht hrun =>
    have hl := LedgerTask.resume_locks hrun
    refine ⟨adv (others ht) (Next.settled_of_running (fun hh => (ledgerRun t).2 (hl.run _ hh)) fun hh => (ledgerRun t).1 (hl.run _ hh)),
      fun b hb => ?_⟩
    have hb : c.lastObserved = some b := hb
    rw [(hl.seen (ledgerRun t).1).1] at hb
    exact hx b hb
  | deliverTrap pre post id t a now e c ht _ hc => exact ⟨others ht, clean hc⟩
  | kill pre post id t a c ht hc => exact ⟨others ht, clean hc⟩
  | answer pre post id t o a now c n ht hty hrun => exact absurd ⟨pre, post, id, t, o, a, now, c, n, ht, hty, hrun, rfl⟩ hno
  | answerTrap pre post id t o a now e c ht _ _ hc => exact ⟨others ht, clean hc⟩
  | killExt pre post id t o c ht hc => exact ⟨others ht, clean hc⟩
  | foreign call _ => exact ⟨I, hx⟩
  | upgrade arg log s ht' hp =>
    refine ⟨fun p hp => ?_, fun b hb => by cases hb⟩
    have : p ∈ w.tasks := hp
    rw [ht'] at this; cases this

theorem Spec.Forked.reachable {w : World} {f : Forking} (h : Forked minter helper good depth w f) : Reachable w := by
  induction h with
  | init id a s blocks acc nonce height h1 h2 => exact .init id a s blocks h1 h2
  | chain _ _ _ _ _ ih => exact ih
  | send _ _ _ _ _ ih => exact ih
  | reply _ _ _ _ _ _ _ _ _ ih => exact ih
  | answer w f pre post id t o a now c n _ ht _ hty hr ih => exact .step _ _ ih (.answer w pre post id t o a now c n ht hty hr)
  | other w w' f _ hs _ ih => exact .step _ _ ih hs

theorem forkInv {w : World} {f : Forking} (h : Forked minter helper good depth w f) (hn : NonceNeverLowered w.mem.m.log)
    (hc : NoCollision w.mem.m.log) (hd : Careful depth w.mem.m.log) : ForkInv minter helper good depth w f := by
  induction h with
  | init id a s blocks acc nonce height h1 h2 =>
    exact ⟨.init id a s blocks acc nonce h1 h2, trivial, Nat.zero_le _, fun b hb => (by cases hb), fun p hp => (by cases hp),
      fun x hx => (by cases hx)⟩
  | chain w f f' _ hs ih =>
    have I := ih hn hc hd
    cases hs with
    | reorg head h1 h2 => exact ⟨I.joint, h1, h2, I.observed, I.tasks, I.replies⟩
    | finalize v rest hh =>
      have hch := I.chained
      rw [hh] at hch
      have O := hch.1.onto
      refine ⟨joint_block I.joint hch.1, hch.2, ?_, fun b hb => Nat.le_succ_of_le (I.observed b hb),
        fun p hp => (I.tasks p hp).mono (Nat.le_succ _) O.nonce fun _ h => h, fun x hx => (I.replies x hx).mono (Nat.le_succ _) O⟩
      have := I.short
      rw [hh] at this
      exact Nat.le_of_succ_le this
  | send w f x _ hx ih =>
    have I := ih hn hc hd
    refine ⟨.send w f.final x I.joint hx, chained_learn x I.chained, by simpa [Forking.learn] using I.short, I.observed,
      fun p hp => (I.tasks p hp).mono (Nat.le_refl _) (Nat.le_refl _) fun _ h => h, fun y hy => ?_⟩
    have := I.replies y hy
    unfold Faithful at this ⊢
    exact this
  | reply w f id t o a _ hp ha ih =>
    have I := ih hn hc hd
    refine ⟨I.joint, I.chained, I.short, I.observed, I.tasks, fun x hx => ?_⟩
    rcases List.mem_append.1 hx with hx | hx
    · exact I.replies x hx
    · rw [List.mem_singleton] at hx
      subst hx
      exact faithful_of_tells I hn hc hd hp ha
  | answer w f pre post id t o a now c n hf ht ha hty hr ih =>
    have hs : Step w (w.advance pre post id c n) := .answer w pre post id t o a now c n ht hty hr
    obtain ⟨es, he⟩ := (Step.grows hf.reachable hs).log
    rw [he] at hc hd
    have hn0 : NonceNeverLowered w.mem.m.log := nonceNeverLowered_prefix (he ▸ hn)
    have I := ih hn0 hc.prefix hd.prefix
    have F := I.replies _ ha
    have hp : (⟨id, .ext t, o⟩ : Pending) ∈ w.tasks := by rw [ht]; simp
    obtain ⟨k1, k2⟩ := answer_settled hr (run_of_reachable hf.reachable hn0) hn0 (I.tasks _ hp) F I.observed
    refine ⟨.minter w _ f.final I.joint hs (told_of_faithful ht hr F), I.chained, I.short, k2, fun p hp => ?_, fun x hx => ?_⟩
    · have mono : ∀ q ∈ w.tasks, q.task.Settled f c.m.log := fun q hq =>
        (I.tasks q hq).mono (Nat.le_refl _) (Nat.le_refl _) (Step.grows hf.reachable hs).mem_log
      have hp : p ∈ pre ++ n.pending id ++ post := hp
      simp only [List.mem_append] at hp
      rcases hp with (hp | hp) | hp
      · exact mono p (by rw [ht]; simp [hp])
      · cases n with
        | finish r => cases hp
        | await t =>
          simp only [Next.pending, List.mem_singleton] at hp
          subst hp; exact k1
      · exact mono p (by rw [ht]; simp [hp])
    · rw [network_kept hf.reachable hs hn]
      exact I.replies x hx
  | other w w' f hf hs hno ih =>
    obtain ⟨es, he⟩ := (Step.grows hf.reachable hs).log
    rw [he] at hc hd
    have I := ih (nonceNeverLowered_prefix (he ▸ hn)) hc.prefix hd.prefix
    obtain ⟨k1, k2⟩ := other_settled hf.reachable hs hno I.tasks I.observed
    refine ⟨.minter w w' f.final I.joint hs (.inl (unclaimed hf.reachable hs hno)), I.chained, I.short, k2, k1, fun x hx => ?_⟩
    rw [network_kept hf.reachable hs hn]
    exact I.replies x hx

/-- **C73.** A minter that keeps its distance from blocks that may be replaced, on a chain with reorganizations, behaves as on the
final part of the chain alone: the world of the minter and the final part of the chain can come about together without any
reorganization (Spec/Evm.lean). -/
theorem C73_final {w : World} {f : Forking} (h : Forked minter helper good depth w f) (hn : NonceNeverLowered w.mem.m.log)
    (hc : NoCollision w.mem.m.log) (hd : Careful depth w.mem.m.log) : Joint minter helper good w f.final :=
  (forkInv h hn hc hd).joint

/-- **C73.** Every deposit in the event log stands for an event that the helper contract emitted in a final block, and every
transaction that the minter considers finalized is in a final block with the recorded receipt. -/
theorem C73_recorded {w : World} {f : Forking} (h : Forked minter helper good depth w f) (hn : NonceNeverLowered w.mem.m.log)
    (hc : NoCollision w.mem.m.log) (hd : Careful depth w.mem.m.log) :
    (∀ e ∈ w.mem.m.log, ∀ d, e.deposit? = some d → ∃ l ∈ f.final.logs, l.deposit? = some d) ∧
    ∀ i r, .finalizedTransaction i r ∈ w.mem.m.log → ∃ x ∈ f.final.mined, x.receipt = r := by
  have J := jointInv (C73_final h hn hc hd) hn
  refine ⟨fun e he d hd => ?_, J.receipts⟩
  obtain ⟨l, h1, h2⟩ := List.mem_filterMap.1 (J.deposited e he d hd)
  exact ⟨l, h1, h2⟩

/-- The newer blocks follow the final ones. -/
theorem forked_chained {w : World} {f : Forking} (h : Forked minter helper good depth w f) :
    Chained minter helper good f.height f.final f.head := by
  induction h with
  | init => trivial
  | chain w f f' _ hs ih =>
    cases hs with
    | reorg head h1 _ => exact h1
    | finalize v rest hh => rw [hh] at ih; exact ih.2
  | send w f x _ _ ih => exact chained_learn x ih
  | reply _ _ _ _ _ _ _ _ _ ih => exact ih
  | answer _ _ _ _ _ _ _ _ _ _ _ _ _ _ _ _ ih => exact ih
  | other _ _ _ _ _ _ ih => exact ih

/-- **C73.** What is in a final block stays there, whatever happens on the chain, and is part of every version of the chain: no
reorganization takes back what the minter has acted upon. -/
theorem C73_lasting {w : World} {f f' : Forking} (h : Forked minter helper good depth w f) (hs : ForkStep minter helper good depth f f') :
    (∀ l ∈ f.final.logs, l ∈ f'.final.logs ∧ l ∈ f'.tip.logs) ∧ ∀ x ∈ f.final.mined, x ∈ f'.final.mined ∧ x ∈ f'.tip.mined := by
  have T := tip_onto (forked_chained (.chain w f f' h hs))
  have O : (∀ l ∈ f.final.logs, l ∈ f'.final.logs) ∧ ∀ x ∈ f.final.mined, x ∈ f'.final.mined := by
    cases hs with
    | reorg head _ _ => exact ⟨fun _ h => h, fun _ h => h⟩
    | finalize v rest hh =>
      have hch := forked_chained h
      rw [hh] at hch
      exact ⟨hch.1.onto.logs, hch.1.onto.mined⟩
  exact ⟨fun l hl => ⟨O.1 l hl, T.logs l (O.1 l hl)⟩, fun x hx => ⟨O.2 x hx, T.mined x (O.2 x hx)⟩⟩

/-- **C73.** The native twin tokens in circulation, and what is owed, are covered by what the minter's address holds after the final
blocks (C64). -/
theorem C73_native_reserve {w : World} {f : Forking} (h : Forked minter helper good depth w f) (hn : NonceNeverLowered w.mem.m.log)
    (hb : BurnsSmall w.mem.m.log) (hc : NoCollision w.mem.m.log) (hd : Careful depth w.mem.m.log)
    (hreg : w.mem.m.st.erc20Tokens.getEntry w.mem.m.st.nativeLedgerId = none) :
    w.minted w.mem.m.st.nativeLedgerId + total (f.final.chain.nativeOwed w) w.mem.m.log ≤
      f.final.acc.native minter + w.burned w.mem.m.st.nativeLedgerId :=
  C64_native_reserve (C73_final h hn hc hd) hn hb hc hreg

/-- **C73.** The same for the twin tokens of good token contracts. -/
theorem C73_token_reserve {w : World} {f : Forking} (h : Forked minter helper good depth w f) (hn : NonceNeverLowered w.mem.m.log)
    (hc : NoCollision w.mem.m.log) (hd : Careful depth w.mem.m.log) {ledger : Principal} {c : Address} {sym : String}
    (hreg : w.mem.m.st.erc20Tokens.getEntry ledger = some (c, sym)) (hl : ledger ≠ w.mem.m.st.nativeLedgerId) (hg : good c) :
    w.minted ledger + total (f.final.chain.tokenOwed w ledger) w.mem.m.log ≤ f.final.acc.tokens c minter + w.burned ledger :=
  C64_token_reserve (C73_final h hn hc hd) hn hc hreg hl hg

/-- **C73.** A withdrawal whose transaction succeeded in a final block is not given back: the minter never reimburses it because of a
receipt that a reorganization made void (C66). -/
theorem C73_not_given_back {w : World} {f : Forking} (h : Forked minter helper good depth w f) (hn : NonceNeverLowered w.mem.m.log)
    (hc : NoCollision w.mem.m.log) (hd : Careful depth w.mem.m.log) {x : FinalizedTx} (hx : x ∈ f.final.mined)
    (hs : x.receipt.status = .success) {i : LedgerBurnIndex} (hi : .signedTransaction i x.signed ∈ w.mem.m.log) :
    ¬ w.GaveBack w.mem.m.st.nativeLedgerId i ∧ ∀ r, .acceptedErc20WithdrawalRequest r ∈ w.mem.m.log → r.nativeLedgerBurnIndex = i →
      ¬ w.GaveBack r.erc20LedgerId r.erc20LedgerBurnIndex :=
  C66_not_given_back (C73_final h hn hc hd) hn hc hx hs hi

end

namespace Example
attribute [local instance] keccak

/-- The log that a provider returns for alice's deposit of native tokens in block 101, and in block 102. -/
def forkLog (amount block tx : Nat) : LogEntry :=
  { nativeLog amount 3 with blockNumber := some block, transactionHash := some tx }

def aliceIn (amount tx : Nat) : List (Call × EventSource) := [(aliceDeposit amount 0 0, ⟨tx, 3⟩)]

/-- Alice deposits in block 101, which becomes final, and again in block 102. The scraper asks for the last final block. It asks for
the logs up to there, and the answer is on its way when block 102 is replaced by two blocks with a different deposit. The minter
mints what was deposited in block 101, except for the fee, which comes later. -/
def forkCareful : List ForkAction :=
  [.chain (.blocks [aliceIn 6000000000 0x21, aliceIn 700 0x22]), .chain .finalize, .start .scrape 5,
    .answer 0 (.block (some 101)) [] 6,
    .answer 0 (.logs (.logs [forkLog 6000000000 101 0x21])) [.blocks [[], aliceIn 900 0x23]] 7,
    .start .mint 8, .execute 0]

/-- The hypotheses of C73 hold in an execution with a reorganization. -/
theorem C73_example : ∃ w f, Forked 0xa11ce 0xcafe (fun c => c = usdc) 2 w f ∧ NonceNeverLowered w.mem.m.log ∧ NoCollision w.mem.m.log ∧
    Careful 2 w.mem.m.log ∧ f.final.acc.native 0xa11ce = 6000000000 ∧ f.tip.acc.native 0xa11ce = 6000000900 ∧
    w.minted ledger = 5999999950 ∧ f.tip.logs.map (fun l => l.block) = [101, 103] := by
  obtain ⟨w, f, h1, h2⟩ := forkAfter_forked (addr := 0xa11ce) (helper := 0xcafe) (t := usdc) (depth := 2) (arg := initArg) (acc := funded)
    (height := 100) (l := forkCareful)
    (p := fun w f => (w.mem.m.log.all fun | .init a => a.blockHeight == .finalized | .upgrade _ => false | .signedTransaction _ _ => false | _ => true) &&
      decide (f.final.acc.native 0xa11ce = 6000000000 ∧ f.tip.acc.native 0xa11ce = 6000000900 ∧
        w.minted ledger = 5999999950 ∧ f.tip.logs.map (fun l => l.block) = [101, 103])) (by decide +kernel)
  rw [Bool.and_eq_true] at h2
  have hall := List.all_eq_true.1 h2.1
  refine ⟨w, f, h1, ?_, fun i j x y hi => ?_, .inr ⟨fun a ha => ?_, fun u b hu => ?_⟩, of_decide_eq_true h2.2⟩
  · intro l₁ a l₂ n he
    cases hall (.upgrade a) (by rw [he]; simp)
  · cases hall _ hi
  · have := hall _ ha; simpa using this
  · cases hall _ hu

/-- The minter is told to look at the newest block; `init` accepts this on a network for which it keeps no distance. -/
def latestArg : InitArg := { initArg with blockHeight := .latest }

/-- Alice deposits in block 101. The scraper is told that block 101 is the newest, and what was deposited in it; the minter mints.
Then block 101 is replaced by an empty block, which becomes final. -/
def forkLatest : List ForkAction :=
  [.chain (.blocks [aliceIn 6000000000 0x21]), .start .scrape 5, .answer 0 (.block (some 101)) [] 6,
    .answer 0 (.logs (.logs [forkLog 6000000000 101 0x21])) [] 7, .start .mint 8, .execute 0,
    .chain (.blocks [[]]), .chain .finalize]

/-- **C73**, why `Careful` is needed: with `block_height = Latest` on a network of margin 0, one replaced block is enough for the
minter to mint tokens that nothing covers. -/
theorem C73_uncovered_latest : ∃ w f, Forked 0xa11ce 0xcafe (fun c => c = usdc) 1 w f ∧ decide (w.minted ledger = 5999999950 ∧
    f.final.acc.native 0xa11ce = 0 ∧ f.final.logs = [] ∧ f.tip.logs = [] ∧ w.burned ledger = 0 ∧
    (w.mem.m.log.filterMap Event.deposit?).length = 1) = true :=
  forkAfter_forked (arg := latestArg) (acc := funded) (height := 100) (l := forkLatest) (by decide +kernel)

end Example
end EvmMinter
