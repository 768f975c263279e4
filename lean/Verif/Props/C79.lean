import Verif.Spec.Node
import Verif.Lemmas.Finalize
import Verif.Lemmas.WorldScrape
import Verif.Props.C29
import Verif.Props.C39
import Verif.Props.C57
import Verif.Props.C60
import Verif.Props.C62
import Verif.Props.C69
import Verif.Props.C73
/-!
# C79: the minter asks the right questions

What the higher layers assume about the answers that tasks receive (`Forking.Tells` in C73, `Honest` in C61) follows from what the
methods of the JSON-RPC interface mean and from nodes that are truthful, because the questions are the right ones.
-/

namespace EvmMinter
open Spec Rpc

/-! ## Texts -/

theorem hexChar_digit : ∀ d < 16, hexChar d ∈ hexDigits ∧ digitValue (hexChar d) = d := by decide +kernel

theorem hexEncode_digits (b : Bytes) : ∀ c ∈ hexEncode b, c ∈ hexDigits := by
  intro c hc
  obtain ⟨x, _, hc⟩ := List.mem_flatMap.1 hc
  have := x.toNat_lt
  simp only [List.mem_cons, List.not_mem_nil, or_false] at hc
  rcases hc with rfl | rfl
  · exact (hexChar_digit _ (by omega)).1
  · exact (hexChar_digit _ (by omega)).1

theorem hexEncode_get (b : Bytes) : ∀ i (h : i < b.length), (hexEncode b)[2 * i]? = some (hexChar ((b[i]).toNat / 16)) ∧
    (hexEncode b)[2 * i + 1]? = some (hexChar ((b[i]).toNat % 16)) := by
  induction b with
  | nil => intro i h; cases h
  | cons x t ih =>
    intro i h
    have e : hexEncode (x :: t) = hexChar (x.toNat / 16) :: hexChar (x.toNat % 16) :: hexEncode t := rfl
    rw [e]
    cases i with
    | zero => exact ⟨rfl, rfl⟩
    | succ i =>
      obtain ⟨h1, h2⟩ := ih i (by simpa using h)
      refine ⟨?_, ?_⟩
      · rw [show 2 * (i + 1) = 2 * i + 1 + 1 from by omega, List.getElem?_cons_succ, List.getElem?_cons_succ]; exact h1
      · rw [show 2 * (i + 1) + 1 = 2 * i + 1 + 1 + 1 from by omega, List.getElem?_cons_succ, List.getElem?_cons_succ]; exact h2

theorem hexEncode_bytes (b : Bytes) : HexBytes ('0' :: 'x' :: hexEncode b) b := by
  refine ⟨hexEncode b, ⟨rfl, hexEncode_length b, hexEncode_digits b⟩, fun i h => ?_⟩
  obtain ⟨h1, h2⟩ := hexEncode_get b i h
  have := (b[i]).toNat_lt
  refine ⟨_, _, h1, h2, ?_⟩
  rw [(hexChar_digit _ (by omega)).2, (hexChar_digit _ (by omega)).2]
  omega

/-- A text stands for one byte string at most. -/
theorem hexBytes_unique {text : List Char} {b b' : Bytes} (h : HexBytes text b) (h' : HexBytes text b') : b = b' := by
  obtain ⟨ds, ⟨h1, h2, _⟩, h3⟩ := h
  obtain ⟨ds', ⟨h1', h2', _⟩, h3'⟩ := h'
  rw [h1] at h1'
  simp only [List.cons.injEq, true_and] at h1'
  subst h1'
  have hl : b.length = b'.length := by omega
  refine List.ext_getElem hl fun i hi hi' => ?_
  obtain ⟨c, d, g1, g2, g3⟩ := h3 i hi
  obtain ⟨c', d', g1', g2', g3'⟩ := h3' i hi'
  rw [g1] at g1'; rw [g2] at g2'
  cases g1'; cases g2'
  exact UInt8.toNat_inj.1 (g3.trans g3'.symm)

theorem hexString_base16 {h : Hash} (hh : h < 2 ^ 256) {digits : List Char} (hs : HexString 64 (Hash.display h) digits) :
    base16 digits = h := by
  have h1 := (C44_hash (s := Hash.display h) (h := h)).2 hh
  have h2 := (C44_hash (s := Hash.display h) (h := base16 digits)).1.2 ⟨digits, hs, rfl⟩
  rw [h1] at h2
  exact (Option.some.inj h2).symm

/-! ## Reports -/

theorem agreed_values {α : Type} {r : MultiRpcResult α} {v : α} (h : Agreed r v) : v ∈ r.values := by
  rcases h with rfl | ⟨l, rfl, h2, h3⟩
  · exact List.mem_singleton.2 rfl
  · obtain ⟨x, hx, hok⟩ := List.countP_pos_iff.1 (by omega : 0 < l.countP fun x => x.2.isOk)
    obtain ⟨p, s⟩ := x
    cases s with
    | error e => cases hok
    | ok b =>
      rw [← h3 p b hx]
      exact List.mem_filterMap.2 ⟨_, hx, rfl⟩

theorem blockNumber_values {r : MultiRpcResult EvmBlock} {n : BlockNumber} (h : Rpc.blockNumber r = .ok (.ok n)) :
    ∃ b ∈ r.values, n = b.number := by
  have : mapReduce (fun b : EvmBlock => .ok b.number) (reduceWithEquality (fromMultiResult r)) = .ok n := by
    unfold Rpc.blockNumber at h
    dsimp only at h
    generalize (List.all _ _) = c at h
    cases c
    · cases h
    · exact Except.ok.inj h
  rw [mapReduce_ok] at this
  obtain ⟨b, h1, h2⟩ := this
  cases h2
  exact ⟨b, agreed_values (equality_agreed.1 h1), rfl⟩

theorem receipts_get : ∀ {l : List RpcReport} {x : List Minter.ReceiptResult}, RpcReport.receipts l = some x →
    x.length = l.length ∧ ∀ k (h : k < x.length) (h' : k < l.length) (r : Receipt), x[k] = .ok (some r) →
      ∃ m, l[k] = .receipt m ∧ Rpc.receipt m = .ok (some r)
  | [], x, h => by
    cases h
    exact ⟨rfl, fun k h => by cases h⟩
  | a :: t, x, h => by
    cases a <;> simp only [RpcReport.receipts, Option.map_eq_some_iff, reduceCtorEq] at h
    obtain ⟨y, hy, rfl⟩ := h
    obtain ⟨h1, h2⟩ := receipts_get hy
    refine ⟨by simp [h1], fun k hk hk' r hr => ?_⟩
    cases k with
    | zero =>
      rename_i m
      refine ⟨m, rfl, ?_⟩
      simp only [List.getElem_cons_zero] at hr
      split at hr
      · rename_i v hv
        rw [hv]
        cases hr; rfl
      · cases hr
    | succ k =>
      simp only [List.getElem_cons_succ] at hr ⊢
      exact h2 k (by simpa using hk) (by simpa using hk') r hr

section
variable [Keccak]

/-! ## What the tasks ask about -/

theorem onlyHelper_state {log : List Event} {s : State} {helper a : Address} (h : Run log s) (ho : OnlyHelper helper log)
    (ha : s.helperContractAddress = some a) : a = helper := by
  obtain ⟨s₀, h1, _, _, h4⟩ := run_replay h
  rw [h4] at ha
  have key : OnlyHelper helper log → ∀ a, s₀.helperContractAddress = some a → a = helper := by
    refine replay_induct (P := fun log s => OnlyHelper helper log → ∀ a, s.helperContractAddress = some a → a = helper) ?_ ?_ h1
    · intro arg s hi ho a ha
      simp only [State.ofInit, bind_ok', pure_ok', orErr_ok, u256OfNat_some] at hi
      obtain ⟨n, ⟨rfl, hn⟩, w, ⟨rfl, hw⟩, f, ⟨rfl, hf⟩, hp, hhp, l, ⟨rfl, hl⟩, p, ⟨rfl, hpp⟩, fs, hfs, d, ⟨rfl, hd⟩,
        wf, ⟨rfl, hwf⟩, _, hv, rfl⟩ := hi
      change hp = some a at ha
      subst ha
      unfold State.parseHelper at hhp
      split at hhp
      · cases hhp
      · rename_i str hstr
        have := ho.1 arg str (by simp) hstr
        rw [this] at hhp
        cases hhp; rfl
    · intro log s e s' _ ih ha ho a hs
      have IH := ih ⟨fun a t h => ho.1 a t (List.mem_append_left _ h), fun a t h => ho.2 a t (List.mem_append_left _ h)⟩
      by_cases he : ∃ arg, e = .upgrade arg
      · obtain ⟨arg, rfl⟩ := he
        simp only [applyEvent] at ha
        split at ha
        · rename_i s2 h3
          cases ha
          obtain ⟨hp, h5, h6, -⟩ := upgrade_ok h3
          rw [h6] at hs
          change hp = some a at hs
          subst hs
          unfold HelperUpd at h5
          split at h5
          · exact IH a h5.symm
          · rename_i t ht
            obtain ⟨x, hx, hxa⟩ := h5
            cases hxa
            rw [ho.2 arg t (by simp) ht] at hx
            cases hx; rfl
        · cases ha
      · have := congrArg UpgradableConfig.helperContractAddress ((applyEvent_frame ha).2.1 fun a ha => he ⟨a, ha⟩)
        exact IH a (Eq.trans this.symm hs)
  exact key ho a ha

/-- The scraping task is the one the scraper is in. -/
theorem scrapeTask_of_mem {w : World} (h : Reachable w) {id : Nat} {t : ScrapeTask} {o : Option LedgerAnswer}
    (hp : ⟨id, .ext (.scrape t), o⟩ ∈ w.tasks) : scrapeTask w.tasks = some t := by
  obtain ⟨pre, post, ht⟩ := List.append_of_mem hp
  have L := lockInv h
  rw [ht] at L
  obtain ⟨k1, k2⟩ := scrapeTask_split L
  rw [ht, List.append_cons, scrapeTask_append, scrapeTask_append, k1]; rfl

/-- The scraper asks about the helper contract. -/
theorem query_helper {w : World} (h : Reachable w) (hn : NonceNeverLowered w.mem.m.log) {helper : Address}
    (ho : OnlyHelper helper w.mem.m.log) {id : Nat} {q : Query} {o : Option LedgerAnswer}
    (hp : ⟨id, .ext (.scrape (.querying q)), o⟩ ∈ w.tasks) : q.contractAddress = helper := by
  obtain ⟨w₀, hist, h0, S⟩ := scraping_of_reachable h hn
  obtain ⟨log, s, sc, h1, _, ⟨rest, h3⟩, h4, h5, -⟩ := (queryInv h0 S).filter q (scrapeTask_of_mem h hp)
  have h3 : log ++ rest = w.mem.m.log := h3
  unfold State.nextScrape at h4
  simp only [Res.bind_ok, Res.expect_ok, Res.pure_ok] at h4
  obtain ⟨a, ha, hsc⟩ := h4
  rw [← h3] at ho
  rw [h5, ← hsc]
  exact onlyHelper_state h1 ⟨fun a t h => ho.1 a t (List.mem_append_left _ h), fun a t h => ho.2 a t (List.mem_append_left _ h)⟩ ha

/-- The minter asks for receipts of transactions that it signed. -/
theorem receipts_signed {w : World} (h : Reachable w) (hn : NonceNeverLowered w.mem.m.log) {id : Nat} {m : FMap Hash LedgerBurnIndex}
    {o : Option LedgerAnswer} (hp : ⟨id, .ext (.retrieveReceipts m), o⟩ ∈ w.tasks) {hash : Hash} {i : LedgerBurnIndex}
    (hm : (hash, i) ∈ m.toList) : Signed w.mem.m.log hash := by
  obtain ⟨count, hc⟩ := receiptClaim h _ hp
  obtain ⟨inv, tl, _⟩ := run_txInv (run_of_reachable h hn) hn
  unfold Transactions.sentToFinalize at hc
  simp only [Res.bind_ok] at hc
  obtain ⟨r, h1, h2⟩ := hc
  obtain ⟨r', g1, g2, _⟩ := MKM.iter_total inv.sw
  rw [g1] at h1; cases h1
  rcases (toFinalizeLoop_ok _ _ _ h2 hash i).1 (FMap.mem_toList.1 hm) with h3 | ⟨x, h3, rfl⟩
  · simp at h3
  · obtain ⟨⟨n, j, l⟩, h4, h5⟩ := List.mem_flatMap.1 h3
    obtain ⟨y, h6, h7⟩ := List.mem_map.1 h5
    simp only [Prod.mk.injEq] at h7
    obtain ⟨rfl, rfl⟩ := h7
    obtain ⟨k, hk⟩ := tl.sentLog n j l y ((g2 _ _ _).1 (List.mem_filter.1 h4).1) h6
    exact ⟨k, _, hk, rfl⟩

/-! ## The answers -/

variable {minter helper : Address} {good : Address → Prop} {depth : Nat}

/-- **C79** (truthful nodes): what C73 assumes about the answers given to a task holds if the nodes are truthful about the questions
that the minter asked. -/
theorem C79_tells (hkec : ∀ b, Keccak.hash b < 2 ^ 256) {w : World} {f : Forking} (h : Reachable w)
    (hn : NonceNeverLowered w.mem.m.log) (ho : OnlyHelper helper w.mem.m.log) (keys : ApiKeys)
    {id : Nat} {t : ExtTask} {o : Option LedgerAnswer} (hp : ⟨id, .ext t, o⟩ ∈ w.tasks) {reports : List RpcReport}
    (hr : List.Forall₂ (fun (q : RpcRequest) r => f.Reports minter helper (Signed w.mem.m.log) q.method r)
      (t.requests w.mem.m.st keys minter) reports)
    {a : ExtAnswer} (ha : t.digest reports = some (.ok a)) : f.Tells w.mem.m.st t a := by
  cases t
  case scrape t =>
    cases t with
    | observing k =>
      simp only [ExtTask.requests, List.forall₂_cons_left_iff, List.forall₂_nil_left_iff] at hr
      obtain ⟨r, l, hr, rfl, rfl⟩ := hr
      cases r <;> simp only [ExtTask.digest, Option.some.injEq, reduceCtorEq, Res.bind_ok] at ha
      obtain ⟨x, hx, ha⟩ := ha
      cases x with
      | error e => simp only [Res.pure_ok] at ha; subst ha; trivial
      | ok n =>
        simp only [Res.pure_ok] at ha
        subst ha
        obtain ⟨b, hb, rfl⟩ := blockNumber_values hx
        have hb := hr b hb
        show b.number ≤ f.tipHeight ∧ (w.mem.m.st.blockHeight = .finalized → b.number ≤ f.height)
        revert hb
        cases w.mem.m.st.blockHeight <;> intro hb
        · exact ⟨hb, fun h => by cases h⟩
        · exact ⟨hb, fun h => by cases h⟩
        · exact ⟨Nat.le_trans (hb : b.number ≤ f.height) (Nat.le_add_right _ _), fun _ => hb⟩
    | querying q =>
      simp only [ExtTask.requests, List.forall₂_cons_left_iff, List.forall₂_nil_left_iff] at hr
      obtain ⟨r, l, hr, rfl, rfl⟩ := hr
      cases r <;> simp only [ExtTask.digest, Option.some.injEq, Except.ok.injEq, reduceCtorEq] at ha
      rename_i r
      subst ha
      cases hl : Rpc.logs r with
      | error e =>
        unfold logsAnswer
        dsimp only
        split <;> trivial
      | ok l =>
        intro e he
        have hv := hr l (agreed_values (C39_logs.1 hl)) e he
        have hc : e.address = helper := by
          have := hv.address
          rw [List.mem_singleton] at this
          rw [this]
          exact query_helper h hn ho hp
        obtain ⟨x, hx, hm⟩ := hv.emitted hc
        exact ⟨x, hx, hm, hv.range _ hm.block⟩
  case retrieveFinalizedCount =>
    simp only [ExtTask.requests, List.forall₂_cons_left_iff, List.forall₂_nil_left_iff] at hr
    obtain ⟨r, l, hr, rfl, rfl⟩ := hr
    cases r <;> simp only [ExtTask.digest, reduceCtorEq] at ha
    rename_i r
    cases hc : Rpc.finalizedCount r with
    | error e => rw [hc] at ha; cases ha; trivial
    | ok n =>
      rw [hc] at ha; cases ha
      exact hr n (agreed_values (C39_finalized_count.1 hc)) rfl
  case retrieveReceipts m =>
    simp only [ExtTask.digest, Option.map_eq_some_iff, Except.ok.injEq] at ha
    obtain ⟨l, hl, rfl⟩ := ha
    obtain ⟨h1, h2⟩ := receipts_get hl
    have h3 : m.toList.length = reports.length := by
      have := hr.length_eq
      simpa [ExtTask.requests] using this
    refine ⟨h1.trans h3.symm, fun hash i r hz => ?_⟩
    obtain ⟨k, hk, e⟩ := List.mem_iff_getElem.1 hz
    rw [List.length_zip] at hk
    rw [List.getElem_zip, Prod.mk.injEq] at e
    have hkl : k < l.length := by omega
    have hkm : k < m.toList.length := by omega
    obtain ⟨mr, g1, g2⟩ := h2 k hkl (by omega) r e.2
    have hq := (List.forall₂_iff_get.1 hr).2 k (by simpa [ExtTask.requests] using hkm) (by omega)
    simp only [ExtTask.requests, List.get_eq_getElem, List.getElem_map, g1, e.1] at hq
    obtain ⟨er, hv, k1, k2, k3, k4, k5, k6⟩ := C39_receipt.1 g2
    obtain ⟨digits, hd, hh, hx⟩ := hq er (agreed_values hv)
    have hmem : (hash, i) ∈ m.toList := by rw [← e.1]; exact List.getElem_mem _
    have hs := receipts_signed h hn hp hmem
    have hlt : hash < 2 ^ 256 := by
      obtain ⟨j, x, _, rfl⟩ := hs
      exact hkec _
    have hb := hexString_base16 hlt hd
    rw [hb] at hh hx
    refine ⟨k5.trans hh, ?_⟩
    obtain ⟨x, hx, hw⟩ := hx hs
    refine ⟨x, hx, ?_⟩
    obtain ⟨w1, w2, w3, w4, w5, w6⟩ := hw
    generalize hxr : x.receipt = xr at *
    obtain ⟨y1, y2, y3, y4, y5, y6⟩ := xr
    obtain ⟨z1, z2, z3, z4, z5, z6⟩ := r
    simp only at *
    subst_vars
    congr 1
    rcases k6 with ⟨k6, rfl⟩ | ⟨k6, rfl⟩ <;> rw [k6] at w6 <;> cases y5 <;> first | rfl | (simp at w6)
  all_goals trivial

omit [Keccak] in
/-- **C79** (complete nodes): if the logs on which the providers agree are all that the method asks for, they are the logs of the helper
contract in the range, as C61 assumes. -/
theorem C79_honest {c : Chain} {w : World} (keys : ApiKeys) (self : Address) {q : Query} {r : MultiRpcResult (List LogEntry)}
    (hr : ∀ m ∈ (ExtTask.scrape (.querying q)).requests w.mem.m.st keys self, ∀ l ∈ r.values, LogsOf c m.method l)
    {a : ExtAnswer} (ha : (ExtTask.scrape (.querying q)).digest [.logs r] = some (.ok a)) :
    ∃ l, a = .logs l ∧ Honest c q.request l := by
  simp only [ExtTask.digest, Option.some.injEq, Except.ok.injEq] at ha
  refine ⟨_, ha.symm, ?_⟩
  cases hl : Rpc.logs r with
  | error e =>
    unfold logsAnswer
    dsimp only
    split <;> trivial
  | ok l =>
    have := hr _ (List.mem_singleton.2 rfl) l (agreed_values (C39_logs.1 hl))
    refine ⟨fun e => ?_, this.2⟩
    rw [this.1 e]
    simp only [List.mem_singleton]
    rfl

/-! ## What the answers say about the reports -/

/-- What the result for one receipt says about the report: no receipt, a receipt, or neither. -/
def ReceiptSays (r : MultiRpcResult (Option EvmReceipt)) : Minter.ReceiptResult → Prop
  | .ok none => Agreed r none
  | .ok (some x) => ∃ e, Agreed r (some e) ∧ WritesReceipt x e
  | .error _ => ¬ Agreed r none ∧ ∀ x e, Agreed r (some e) → ¬ WritesReceipt x e

theorem receiptSays (r : MultiRpcResult (Option EvmReceipt)) : ReceiptSays r (match Rpc.receipt r with
    | .ok x => .ok x
    | .error _ => .error ()) := by
  have key : ∀ x, Rpc.receipt r = .ok (some x) ↔ ∃ e, Agreed r (some e) ∧ WritesReceipt x e := by
    intro x
    rw [C39_receipt]
    refine exists_congr fun e => and_congr_right fun _ => ?_
    constructor
    · rintro ⟨h1, h2, h3, h4, h5, h6⟩
      refine ⟨h1.symm, h2.symm, h3.symm, h4.symm, h5.symm, ?_⟩
      rcases h6 with ⟨h6, h7⟩ | ⟨h6, h7⟩ <;> rw [h6, h7]
    · rintro ⟨h1, h2, h3, h4, h5, h6⟩
      refine ⟨h1.symm, h2.symm, h3.symm, h4.symm, h5.symm, ?_⟩
      cases hx : x.status <;> rw [hx] at h6
      · exact .inl ⟨h6, rfl⟩
      · exact .inr ⟨h6, rfl⟩
  cases h : Rpc.receipt r with
  | error e =>
    refine ⟨fun hn => ?_, fun x e' he hw => ?_⟩
    · rw [C39_no_receipt.2 hn] at h; cases h
    · rw [(key x).2 ⟨e', he, hw⟩] at h; cases h
  | ok o =>
    cases o with
    | none => exact C39_no_receipt.1 h
    | some x => exact (key x).1 h

omit [Keccak] in
/-- **C79** (reported receipts): there is one result for each report, in the order of the requests. It is a receipt exactly as the
providers that answered wrote it, or the answer of all of them that there is none, or an error if they did neither. -/
theorem C79_reported (m : FMap Hash LedgerBurnIndex) (rs : List (MultiRpcResult (Option EvmReceipt))) :
    ∃ l, (ExtTask.retrieveReceipts m).digest (rs.map .receipt) = some (.ok (.receipts l)) ∧ List.Forall₂ ReceiptSays rs l := by
  have key : ∃ l, RpcReport.receipts (rs.map .receipt) = some l ∧ List.Forall₂ ReceiptSays rs l := by
    induction rs with
    | nil => exact ⟨[], rfl, .nil⟩
    | cons r t ih =>
      obtain ⟨l, h1, h2⟩ := ih
      refine ⟨_, ?_, .cons (receiptSays r) h2⟩
      rw [List.map_cons, RpcReport.receipts, h1]
      rfl
  obtain ⟨l, h1, h2⟩ := key
  refine ⟨l, ?_, h2⟩
  rw [ExtTask.digest, h1]
  rfl

omit [Keccak] in
/-- **C79** (reported numbers): the latest number of transactions is the common answer or the smallest of several, and it is missing only if the
providers share an error or fewer than two answer; the final number is missing unless the providers agree. -/
theorem C79_counted (g : GasFeeEstimate) (r : MultiRpcResult TransactionCount) :
    (∃ o, (ExtTask.retrieveCount g).digest [.count r] = some (.ok (.count o)) ∧
      (∀ n, o = some n → r = .consistent (.ok n) ∨
        ∃ l, r = .inconsistent l ∧ 2 ≤ l.countP (fun x => x.2.isOk) ∧ (∃ p, (p, .ok n) ∈ l) ∧ ∀ p m, (p, .ok m) ∈ l → n ≤ m) ∧
      (o = none → (∃ e, r = .consistent (.error e)) ∨ ∃ l, r = .inconsistent l ∧ l.countP (fun x => x.2.isOk) < 2)) ∧
    ∃ o, ExtTask.retrieveFinalizedCount.digest [.count r] = some (.ok (.count o)) ∧ ∀ n, o = some n ↔ Agreed r n := by
  constructor
  · obtain ⟨o, h1, h2⟩ := C39_latest_count (r := r)
    rw [ExtTask.digest, h1]
    cases o with
    | ok n => exact ⟨some n, rfl, fun k hk => h2 k (by cases hk; rfl), fun h => by cases h⟩
    | error e =>
      refine ⟨none, rfl, fun n hn => (by cases hn), fun _ => ?_⟩
      unfold Rpc.latestCount at h1
      rw [mapReduce_id] at h1
      obtain ⟨o', g1, _, g3⟩ := C39_minimum (fun n : Nat => n) (fromMultiResult r)
      rw [g1] at h1
      cases h1
      obtain ⟨g4, g5⟩ := g3 e rfl
      cases r with
      | consistent r =>
        cases r with
        | ok a => cases g4
        | error e => exact .inl ⟨e, rfl⟩
      | inconsistent l =>
        refine .inr ⟨l, rfl, ?_⟩
        obtain ⟨l', hl', he⟩ : ∃ l', e = .inconsistent l' ∧ fromMultiResult (.inconsistent l) = .error (.inconsistent l') := by
          unfold fromMultiResult at g4 ⊢
          dsimp only at g4 ⊢
          cases g4
          exact ⟨_, rfl, rfl⟩
        have := g5 l' hl'
        obtain ⟨l'', h3, h4⟩ := fromMultiResult_inconsistent.1 he
        cases h3
        rw [h4] at this
        rwa [countP_convert] at this
  · rw [ExtTask.digest]
    cases h : Rpc.finalizedCount r with
    | ok n =>
      refine ⟨some n, rfl, fun k => ?_⟩
      rw [← C39_finalized_count, h]
      simp
    | error e =>
      refine ⟨none, rfl, fun k => ?_⟩
      rw [← C39_finalized_count, h]
      simp

omit [Keccak] in
/-- **C79** (reported block): the block observed is one on whose number the providers agree, and it is missing if they do not agree on a block. -/
theorem C79_observed (k : Nat) (r : MultiRpcResult EvmBlock) (hfee : ∀ b ∈ r.values, b.baseFeePerGas.isSome) :
    ∃ o, (ExtTask.scrape (.observing k)).digest [.block r] = some (.ok (.block o)) ∧ ∀ n, o = some n ↔ ∃ b, Agreed r b ∧ n = b.number := by
  obtain ⟨o, h1, h2⟩ := C39_block (r := r) ⟨fun b hb => hfee b (by rw [hb]; exact List.mem_singleton.2 rfl), fun l hl p b hb =>
    hfee b (by rw [hl]; exact List.mem_filterMap.2 ⟨_, hb, rfl⟩)⟩
  rw [ExtTask.digest, h1]
  cases o with
  | ok n =>
    refine ⟨some n, rfl, fun k => ?_⟩
    rw [← h2]
    simp
  | error e =>
    refine ⟨none, rfl, fun k => ?_⟩
    rw [← h2]
    simp

/-! ## Who is asked -/

omit [Keccak] in
/-- **C79** (whom): every request goes to the configured EVM RPC canister and names services of the minter's network, with its chain id;
no service of another network is asked. Logs, receipts and transactions go to all services, of which there are at least two. -/
theorem C79_whom (s : State) (keys : ApiKeys) (self : Address) (t : ExtTask) {r : RpcRequest} (hr : r ∈ t.requests s keys self) :
    r.canister = s.evmCanisterId ∧ r.services.chainId = registeredChain s.evmNetwork ∧ r.services.services ≠ [] ∧
    (∀ url ∈ r.services.services, ∀ keys' n, n ≠ s.evmNetwork → url ∉ (getProviders keys' n).services) ∧
    ((∃ q, t = .scrape (.querying q)) ∨ (∃ b, t = .retrieveSend b) ∨ (∃ m, t = .retrieveReceipts m) →
      2 ≤ r.services.services.length ∧ r.services.services.Nodup) := by
  obtain ⟨c1, c2, c3⟩ := C69_chain keys s.evmNetwork
  obtain ⟨⟨ua, a1, a2, _⟩, up, p1, p2, _⟩ := C69_single keys s.evmNetwork
  obtain ⟨m1, m2⟩ := C69_several keys s.evmNetwork
  have sep : ∀ url ∈ (getProviders keys s.evmNetwork).services, ∀ keys' n, n ≠ s.evmNetwork → url ∉ (getProviders keys' n).services :=
    fun url h keys' n hne => C69_separate keys keys' (Ne.symm hne) url h
  have all : ∀ m, r = s.askAll keys m → r.canister = s.evmCanisterId ∧ r.services.chainId = registeredChain s.evmNetwork ∧
      r.services.services ≠ [] ∧ (∀ url ∈ r.services.services, ∀ keys' n, n ≠ s.evmNetwork → url ∉ (getProviders keys' n).services) ∧
      2 ≤ r.services.services.length ∧ r.services.services.Nodup := by
    rintro m rfl
    refine ⟨rfl, c1, fun h => ?_, sep, m1, m2⟩
    have h : (getProviders keys s.evmNetwork).services = [] := h
    rw [h] at m1; exact absurd m1 (by decide)
  have one : ∀ m, r = s.askAnkr keys m ∨ r = s.askPublicNode keys m → r.canister = s.evmCanisterId ∧
      r.services.chainId = registeredChain s.evmNetwork ∧ r.services.services ≠ [] ∧
      ∀ url ∈ r.services.services, ∀ keys' n, n ≠ s.evmNetwork → url ∉ (getProviders keys' n).services := by
    rintro m (rfl | rfl)
    · refine ⟨rfl, c2, fun h => ?_, fun url h => ?_⟩
      · have h : (getOneProviderAnkr keys s.evmNetwork).services = [] := h
        rw [a1] at h; cases h
      · have h : url ∈ (getOneProviderAnkr keys s.evmNetwork).services := h
        rw [a1, List.mem_singleton] at h
        subst h; exact sep _ a2
    · refine ⟨rfl, c3, fun h => ?_, fun url h => ?_⟩
      · have h : (getOneProviderPublicNode keys s.evmNetwork).services = [] := h
        rw [p1] at h; cases h
      · have h : url ∈ (getOneProviderPublicNode keys s.evmNetwork).services := h
        rw [p1, List.mem_singleton] at h
        subst h; exact sep _ p2
  have wrap : ∀ {A B C D E F : Prop}, (A ∧ B ∧ C ∧ D) → ¬ E → A ∧ B ∧ C ∧ D ∧ (E → F) :=
    fun h hn => ⟨h.1, h.2.1, h.2.2.1, h.2.2.2, fun e => absurd e hn⟩
  have wrap' : ∀ {A B C D E F : Prop}, (A ∧ B ∧ C ∧ D ∧ F) → A ∧ B ∧ C ∧ D ∧ (E → F) :=
    fun h => ⟨h.1, h.2.1, h.2.2.1, h.2.2.2.1, fun _ => h.2.2.2.2⟩
  cases t
  case scrape t =>
    cases t with
    | observing k => exact wrap (one _ (.inr (List.mem_singleton.1 hr))) (by simp)
    | querying q => exact wrap' (all _ (List.mem_singleton.1 hr))
  case gas => exact wrap (one _ (.inr (List.mem_singleton.1 hr))) (by simp)
  case retrieveGas => exact wrap (one _ (.inr (List.mem_singleton.1 hr))) (by simp)
  case erc20Gas q => exact wrap (one _ (.inr (List.mem_singleton.1 hr))) (by simp)
  case retrieveCount g => exact wrap (one _ (.inl (List.mem_singleton.1 hr))) (by simp)
  case retrieveSign => cases hr
  case retrieveFinalizedCount => exact wrap (one _ (.inr (List.mem_singleton.1 hr))) (by simp)
  case retrieveSend b =>
    obtain ⟨x, _, hx⟩ := List.mem_map.1 hr
    exact wrap' (all _ hx.symm)
  case retrieveReceipts m =>
    obtain ⟨x, _, hx⟩ := List.mem_map.1 hr
    exact wrap' (all _ hx.symm)

/-! ## What is sent, and what is asked about it -/

/-- **C79** (sending): a transaction is sent as a text that stands for the bytes of a transaction that the minter signed and recorded, and
for no other bytes. Their hash is what the minter later asks for. -/
theorem C79_send {w : World} (h : Reachable w) (hn : NonceNeverLowered w.mem.m.log) (keys : ApiKeys) (self : Address)
    {id : Nat} {batch : List SignedTx} {o : Option LedgerAnswer} (hp : ⟨id, .ext (.retrieveSend batch), o⟩ ∈ w.tasks) :
    List.Forall₂ (fun (r : RpcRequest) x => (∃ i, .signedTransaction i x ∈ w.mem.m.log) ∧
        ∃ text, r.method = .sendRawTransaction text ∧ ∀ b, HexBytes text b ↔ b = x.rawBytes)
      ((ExtTask.retrieveSend batch).requests w.mem.m.st keys self) batch := by
  have hl := fromLog h hn _ hp
  rw [ExtTask.requests, List.forall₂_map_left_iff, List.forall₂_same]
  intro x hx
  refine ⟨hl x hx, _, rfl, fun b => ⟨fun hb => hexBytes_unique hb (hexEncode_bytes _), ?_⟩⟩
  rintro rfl
  exact hexEncode_bytes _

/-- **C79** (receipts): each request for a receipt names in hexadecimal digits the hash of the bytes of a transaction that the minter
signed and recorded; no hash is asked for twice. -/
theorem C79_receipts (hkec : ∀ b, Keccak.hash b < 2 ^ 256) {w : World} (h : Reachable w) (hn : NonceNeverLowered w.mem.m.log)
    (keys : ApiKeys) (self : Address) {id : Nat} {m : FMap Hash LedgerBurnIndex} {o : Option LedgerAnswer}
    (hp : ⟨id, .ext (.retrieveReceipts m), o⟩ ∈ w.tasks) :
    (∀ r ∈ (ExtTask.retrieveReceipts m).requests w.mem.m.st keys self, ∃ i x digits text, .signedTransaction i x ∈ w.mem.m.log ∧
      r.method = .getTransactionReceipt text ∧ HexString 64 text digits ∧ base16 digits = Keccak.hash x.rawBytes) ∧
    ((ExtTask.retrieveReceipts m).requests w.mem.m.st keys self).Nodup := by
  have hd : ∀ y ∈ m.toList, ∃ i x digits, .signedTransaction i x ∈ w.mem.m.log ∧ y.1 = Keccak.hash x.rawBytes ∧
      HexString 64 (Hash.display y.1) digits ∧ base16 digits = y.1 := by
    rintro ⟨hash, j⟩ hy
    obtain ⟨i, x, hx, rfl⟩ := receipts_signed h hn hp hy
    obtain ⟨digits, hs, _⟩ := (C44_hash (s := Hash.display x.hash) (h := x.hash)).1.1 ((C44_hash (s := [])).2 (hkec _))
    exact ⟨i, x, digits, hx, rfl, hs, hexString_base16 (hkec _) hs⟩
  constructor
  · intro r hr
    obtain ⟨y, hy, rfl⟩ := List.mem_map.1 hr
    obtain ⟨i, x, digits, h1, h2, h3, h4⟩ := hd y hy
    exact ⟨i, x, digits, _, h1, rfl, h3, h4.trans h2⟩
  · refine List.Pairwise.map _ (R := fun x y : Hash × LedgerBurnIndex => x ∈ m.toList ∧ y ∈ m.toList ∧ x.1 ≠ y.1) ?_ ?_
    · rintro x y ⟨hx, hy, hne⟩ he
      obtain ⟨_, _, d, _, _, h3, h4⟩ := hd x hx
      obtain ⟨_, _, d', _, _, h3', h4'⟩ := hd y hy
      have he : Hash.display x.1 = Hash.display y.1 := by
        have := congrArg RpcRequest.method he
        exact RpcMethod.getTransactionReceipt.inj this
      rw [he] at h3
      have : d = d' := by
        have := h3.1.symm.trans h3'.1
        simpa using this
      subst this
      exact hne (h4.symm.trans h4')
    · refine List.Pairwise.imp_of_mem (fun hx hy hlt => ⟨hx, hy, fun he => ?_⟩) m.sorted
      rw [he] at hlt
      exact absurd hlt (by simp [TOrd.lt])

omit [Keccak] in
/-- **C79** (numbers): the scraper asks for the block with the configured tag; the transactions counted are those from the minter's own
address, the latest before sending and the final ones before asking for receipts; prices come from the five newest blocks. -/
theorem C79_numbers (s : State) (keys : ApiKeys) (self : Address) (k : Nat) (g : GasFeeEstimate) (q : Erc20Call) :
    ((ExtTask.scrape (.observing k)).requests s keys self).map (·.method) = [.getBlockByNumber (match s.blockHeight with
      | .latest => .latest
      | .safe => .safe
      | .finalized => .finalized)] ∧
    ((ExtTask.retrieveCount g).requests s keys self).map (·.method) = [.getTransactionCount self .latest] ∧
    (ExtTask.retrieveFinalizedCount.requests s keys self).map (·.method) = [.getTransactionCount self .finalized] ∧
    ∀ t ∈ [ExtTask.gas, .retrieveGas, .erc20Gas q], (t.requests s keys self).map (·.method) = [.feeHistory 5 .latest [20]] := by
  refine ⟨?_, rfl, rfl, ?_⟩
  · show [RpcMethod.getBlockByNumber (intoEvmBlockTag (.tag s.blockHeight))] = _
    cases s.blockHeight <;> rfl
  · intro t ht
    simp only [List.mem_cons, List.not_mem_nil, or_false] at ht
    rcases ht with rfl | rfl | rfl <;> rfl

end

namespace Example

/-- A hash function with 32-byte digests: the first 32 bytes. -/
@[instance_reducible] def shortKeccak : Keccak := ⟨fun b => beNat (b.take 32)⟩

attribute [local instance] shortKeccak

theorem shortKeccak_lt (b : Bytes) : Keccak.hash b < 2 ^ 256 := by
  have h := beNat_lt (b.take 32)
  have h2 : (256 : Nat) ^ (b.take 32).length ≤ 256 ^ 32 := Nat.pow_le_pow_right (by decide) (by simp)
  exact Nat.lt_of_lt_of_le h (by simpa using h2)

/-- The receipt of the first transaction of C55, which failed, and of the second, with the hashes of `shortKeccak`. -/
def failedReceipt : Receipt := ⟨1, 200, 40, 21000, .failure, nativeTx.hash⟩
def minedReceipt : Receipt := ⟨2, 201, 40, 60000, .success, usdcTx.hash⟩

/-- What the nodes write. -/
def failedWritten : EvmReceipt := ⟨1, 200, 40, 21000, some 0, nativeTx.hash, 5⟩
def minedWritten : EvmReceipt := ⟨2, 201, 40, 60000, some 1, usdcTx.hash, 6⟩

/-- The chain on which both transactions are mined. -/
def bothMinedChain : Forking := ⟨⟨⟨fun _ => 0, fun _ _ => 0⟩, 7, [], [⟨nativeTx, failedReceipt⟩, ⟨usdcTx, minedReceipt⟩], []⟩, 300, [], []⟩

/-- Two of the three providers answer. -/
def receiptReports : List RpcReport :=
  [.receipt (.inconsistent [(0, .ok (some failedWritten)), (1, .error (.jsonRpc 7 "down")), (2, .ok (some failedWritten))]),
    .receipt (.consistent (.ok (some minedWritten)))]

/-- `after` (Spec/ExampleWorld.lean) with this hash function. -/
def afterShort (l : List Action) (p : World → Bool) : Bool :=
  match State.ofInit initArg with
  | .ok s =>
    match (World.initial minter initArg s []).play l with
    | some w => p w
    | none => false
  | .error _ => false

theorem afterShort_reachable {l : List Action} {p : World → Bool} (h : afterShort l p = true) : ∃ w, Reachable w ∧ p w = true := by
  unfold afterShort at h
  split at h
  · rename_i s hs
    split at h
    · rename_i w hw
      exact ⟨w, World.play_reachable (.init minter initArg s [] hs (by simp)) hw, h⟩
    · cases h
  · cases h

theorem C79_example_receipts : ∃ w, Reachable w ∧ (match w.tasks with
    | [⟨_, .ext (.retrieveReceipts f), _⟩] => decide (f.toList.map (·.1) = [nativeTx.hash, usdcTx.hash]) &&
        (w.mem.m.log.all fun
          | .init a => decide (a.helperContractAddress = some "0x000000000000000000000000000000000000cafe".toList)
          | .upgrade _ => false
          | _ => true)
    | _ => false) = true :=
  afterShort_reachable (l := askingReceipts) (by decide +kernel)

/-- The hypotheses of `C79_tells` hold with two mined transactions, and the task learns of both. -/
theorem C79_example : ∃ w, Reachable w ∧ NonceNeverLowered w.mem.m.log ∧ OnlyHelper 0xcafe w.mem.m.log ∧ ∃ id m o,
    ⟨id, .ext (.retrieveReceipts m), o⟩ ∈ w.tasks ∧
    List.Forall₂ (fun (q : RpcRequest) r => bothMinedChain.Reports 0xa11ce 0xcafe (Signed w.mem.m.log) q.method r)
      ((ExtTask.retrieveReceipts m).requests w.mem.m.st (fun _ => none) 0xa11ce) receiptReports ∧
    (ExtTask.retrieveReceipts m).digest receiptReports = some (.ok (.receipts [.ok (some failedReceipt), .ok (some minedReceipt)])) := by
  obtain ⟨w, hr, hw⟩ := C79_example_receipts
  refine ⟨w, hr, ?_⟩
  split at hw
  · rename_i id f o ht
    rw [Bool.and_eq_true, decide_eq_true_eq, List.all_eq_true] at hw
    obtain ⟨hf, hl⟩ := hw
    refine ⟨?_, ⟨?_, ?_⟩, id, f, o, by rw [ht]; simp, ?_, ?_⟩
    · intro l₁ a l₂ n he
      cases hl (.upgrade a) (by rw [he]; simp)
    · intro a t ha hat
      have := of_decide_eq_true (hl _ ha)
      rw [hat] at this
      cases this
      decide +kernel
    · intro a t ha
      cases hl _ ha
    · have e : (ExtTask.retrieveReceipts f).requests w.mem.m.st (fun _ => none) 0xa11ce =
          (f.toList.map (·.1)).map fun h => w.mem.m.st.askAll (fun _ => none) (.getTransactionReceipt (Hash.display h)) := by
        simp [ExtTask.requests]
      rw [e, hf]
      have text : ∀ x : SignedTx, ∃ digits, HexString 64 (Hash.display x.hash) digits ∧ base16 digits = x.hash := by
        intro x
        obtain ⟨digits, hs, hb⟩ := (C44_hash (s := Hash.display x.hash) (h := x.hash)).1.1 ((C44_hash (s := [])).2 (shortKeccak_lt _))
        exact ⟨digits, hs, hb.symm⟩
      refine .cons ?_ (.cons ?_ .nil)
      · intro er her
        have : er = failedWritten := by simpa [receiptReports, MultiRpcResult.values] using her
        subst this
        obtain ⟨d, h1, h2⟩ := text nativeTx
        exact ⟨d, h1, h2.symm, fun _ => ⟨⟨nativeTx, failedReceipt⟩, by simp [bothMinedChain, Forking.tip], rfl, rfl, rfl, rfl, rfl, rfl⟩⟩
      · intro er her
        have : er = minedWritten := by simpa [receiptReports, MultiRpcResult.values] using her
        subst this
        obtain ⟨d, h1, h2⟩ := text usdcTx
        exact ⟨d, h1, h2.symm, fun _ => ⟨⟨usdcTx, minedReceipt⟩, by simp [bothMinedChain, Forking.tip], rfl, rfl, rfl, rfl, rfl, rfl⟩⟩
    · rfl
  · cases hw

/-- A receipt that one provider does not know of is an error, not a missing receipt; of two numbers the smaller counts. -/
theorem C79_example_reported (m : FMap Hash LedgerBurnIndex) (g : GasFeeEstimate) :
    (ExtTask.retrieveReceipts m).digest [.receipt (.consistent (.ok none)),
      .receipt (.inconsistent [(0, .ok none), (1, .ok (some failedWritten))]), .receipt (.consistent (.error (.jsonRpc 7 "down")))] =
      some (.ok (.receipts [.ok none, .error (), .error ()])) ∧
    (ExtTask.retrieveCount g).digest [.count (.inconsistent [(0, .ok 7), (1, .ok 5)])] = some (.ok (.count (some 5))) ∧
    (ExtTask.retrieveCount g).digest [.count (.inconsistent [(0, .ok 7), (1, .error (.jsonRpc 7 "down"))])] =
      some (.ok (.count none)) ∧
    (ExtTask.scrape (.observing 0)).digest [.block (.consistent (.ok ⟨12, some 5, 0⟩))] = some (.ok (.block (some 12))) :=
  ⟨rfl, rfl, rfl, rfl⟩

/-- The texts sent for the two transactions of C55 (type 2, chain 11155111 = 0xaa36a7). -/
theorem C79_example_send : ∃ w, Reachable w ∧ (match w.tasks with
    | [⟨_, .ext (.retrieveSend batch), _⟩] => decide (batch = [nativeTx, usdcTx] ∧
        ((ExtTask.retrieveSend batch).requests w.mem.m.st (fun _ => none) 0xa11ce).map (fun r => match r.method with
          | .sendRawTransaction text => (text.take 18, text.length)
          | _ => ([], 0)) = [("0x02ea83aa36a70502".toList, 90), ("0x02f86a83aa36a706".toList, 220)])
    | _ => false) = true :=
  afterShort_reachable (l := sending ++ [.answer 0 (.signatures [some sig, some sig]) 42]) (by decide +kernel)

/-- The first request for logs: up to the block that was reported, of the helper contract, with the topic of its event. -/
theorem C79_example_logs : ∃ w, Reachable w ∧ (match w.tasks with
    | [⟨_, .ext (.scrape (.querying q)), _⟩] => decide (
        ((ExtTask.scrape (.querying q)).requests w.mem.m.st (fun _ => none) 0xa11ce) =
          [⟨⟨[0, 0, 0, 0, 0, 0xc0, 0x58, 0x96, 1, 1]⟩, ⟨11155111, ["https://rpc.ankr.com/eth_sepolia".toList,
              "https://ethereum-sepolia-rpc.publicnode.com".toList]⟩,
            .getLogs (.number 101) (.number 101) [0xcafe] [[depositTopic], []]⟩])
    | _ => false) = true :=
  afterShort_reachable (l := [.start .scrape 5, .answer 0 (.block (some 101)) 6]) (by decide +kernel)

end Example
end EvmMinter
