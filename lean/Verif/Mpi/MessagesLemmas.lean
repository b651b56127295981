import Verif.Mpi.MessagesSpec
import Mathlib.Tactic.Ring
/-!
# Message tracing: simulation
-/
namespace Verif.MpiMsg
open Verif

theorem i32_fits {x : Int} (h : Fits x) : i32 x = x := by
  unfold i32 Fits at *
  apply Int.bmod_eq_of_le <;> omega

theorem whole_size {ty : Nat} {st : Status} (h : Whole ty st) : i32 (ty * st.count ty) = st.bytes := by
  obtain ⟨h1, h2, h3⟩ := h
  have : (ty : Int) * st.count ty = st.bytes := by
    unfold Status.count
    split
    · rename_i h0
      rw [h2 h0, h0]; rfl
    · rw [if_pos (Nat.mod_eq_zero_of_dvd h1)]
      have := Nat.mul_div_cancel' h1
      rw [← Int.natCast_mul, this]
  rw [this]
  exact i32_fits h3

variable {σ κ : Type}

/-- `K' ` keeps what `K` knows -/
def Keeps (K : σ → Comm → κ → Prop) (s s' : σ) : Prop := ∀ c k, K s c k → K s' c k

/-- the sink does what it should with single events -/
structure SinkOk (S : Sink σ κ) (G : Comm → Prop) (I : σ → List MEv → Prop) (K : σ → Comm → κ → Prop) : Prop where
  comm : ∀ s evs c, I s evs → G c → I (S.comm s c).1 evs ∧ K (S.comm s c).1 c (S.comm s c).2 ∧ Keeps K s (S.comm s c).1
  send : ∀ s evs c k dst tag n, I s evs → K s c k → I (S.send s k dst tag n) (evs ++ [.sent c dst tag n]) ∧ Keeps K s (S.send s k dst tag n)
  recv : ∀ s evs c k src tag n, I s evs → K s c k → I (S.recv s k src tag n) (evs ++ [.received c src tag n]) ∧ Keeps K s (S.recv s k src tag n)
  coll : ∀ s evs c k kd n root, I s evs → K s c k → I (S.coll s k kd n root) (evs ++ [.coll c kd n root]) ∧ Keeps K s (S.coll s k kd n root)
  begin : ∀ s evs, I s evs → I (S.begin s) (evs ++ [.begin]) ∧ Keeps K s (S.begin s)
  fin : ∀ s evs, I s evs → I (S.fin s) (evs ++ [.fin]) ∧ Keeps K s (S.fin s)

/-- the entry for a request -/
def ReqOk (K : σ → Comm → κ → Prop) (t : σ) (e : Option (Info κ)) : Option Req → Prop
  | none => e = none
  | some r =>
    if r.recv then ∃ k, e = some ⟨true, r.persistent, 0, 0, r.ty, 0, k⟩ ∧ K t r.comm k
    else if r.persistent then ∃ k, e = some ⟨false, true, r.dst, r.tag, r.ty, r.ty * r.count, k⟩ ∧ K t r.comm k
    else e = none

theorem ReqOk.keep {K : σ → Comm → κ → Prop} {t t' : σ} {e : Option (Info κ)} {r : Option Req} (h : ReqOk K t e r) (hk : Keeps K t t') : ReqOk K t' e r := by
  cases r with
  | none => exact h
  | some r =>
    unfold ReqOk at *
    simp only at *
    split
    · rename_i h1; rw [if_pos h1] at h
      obtain ⟨k, a, b⟩ := h
      exact ⟨k, a, hk _ _ b⟩
    · rename_i h1; rw [if_neg h1] at h
      split
      · rename_i h2; rw [if_pos h2] at h
        obtain ⟨k, a, b⟩ := h
        exact ⟨k, a, hk _ _ b⟩
      · rename_i h2; rw [if_neg h2] at h
        exact h

/-- simulation -/
structure Sim (I : σ → List MEv → Prop) (K : σ → Comm → κ → Prop) (L : Live) (s : St σ κ) (evs : List MEv) : Prop where
  inv : I s.sink evs
  bad : s.bad = false
  reqs : ∀ h, ReqOk K s.sink (s.reqs h) (L h)

section
variable {S : Sink σ κ} {G : Comm → Prop} {I : σ → List MEv → Prop} {K : σ → Comm → κ → Prop}

theorem Sim.updReq {L : Live} {s : St σ κ} {evs : List MEv} {t : σ} (hs : Sim I K L s evs) (hi : I t evs) (hk : Keeps K s.sink t) {h : Nat} {e : Option (Info κ)}
    {r : Option Req} (hr : ReqOk K t e r) : Sim I K (BB.upd L h r) { s with sink := t, reqs := BB.upd s.reqs h e } evs := by
  refine ⟨hi, hs.bad, ?_⟩
  intro h'
  unfold BB.upd
  by_cases hh : h' = h
  · simp only [hh, if_true]; exact hr
  · simp only [if_neg hh]; exact (hs.reqs h').keep hk

theorem Sim.sink {L : Live} {s : St σ κ} {evs evs' : List MEv} {t : σ} (hs : Sim I K L s evs) (hi : I t evs') (hk : Keeps K s.sink t) :
    Sim I K L { s with sink := t } evs' := ⟨hi, hs.bad, fun h => (hs.reqs h).keep hk⟩

theorem sim_send (ok : SinkOk S G I K) {L : Live} {s : St σ κ} {evs : List MEv} (hs : Sim I K L s evs) {n : Int} {ty : Nat} {dst tag : Int} {c : Comm}
    (hf : Fits (ty * n)) (hg : G c) : Sim I K L (handleSend S s n ty dst tag c) (evs ++ [.sent c dst tag (ty * n)]) := by
  obtain ⟨a1, a2, a3⟩ := ok.comm s.sink evs c hs.inv hg
  obtain ⟨b1, b2⟩ := ok.send _ _ _ _ dst tag (ty * n) a1 a2
  unfold handleSend
  dsimp only
  rw [i32_fits hf]
  exact hs.sink b1 fun c k h => b2 _ _ (a3 _ _ h)

theorem sim_recv (ok : SinkOk S G I K) {L : Live} {s : St σ κ} {evs : List MEv} (hs : Sim I K L s evs) {ty : Nat} {st : Status} {c : Comm}
    (hf : Whole ty st) (hg : G c) : Sim I K L (handleRecv S s ty c st) (evs ++ [.received c st.src st.tag st.bytes]) := by
  obtain ⟨a1, a2, a3⟩ := ok.comm s.sink evs c hs.inv hg
  obtain ⟨b1, b2⟩ := ok.recv _ _ _ _ st.src st.tag st.bytes a1 a2
  unfold handleRecv
  dsimp only
  rw [whole_size hf]
  exact hs.sink b1 fun c k h => b2 _ _ (a3 _ _ h)

theorem sim_complete (ok : SinkOk S G I K) {L : Live} {s : St σ κ} {evs : List MEv} (hs : Sim I K L s evs) {h : Nat} {st : Status}
    (hp : ∀ r, L h = some r → r.recv = true → r.active = true ∧ st.cancelled = false ∧ Whole r.ty st) :
    Sim I K (complete L h st).1 (completion1 S s h st) (evs ++ (complete L h st).2) := by
  have hr := hs.reqs h
  unfold complete completion1
  cases hL : L h with
  | none =>
    rw [hL] at hr
    have hr : s.reqs h = none := hr
    rw [hr]
    simpa using hs
  | some r =>
    rw [hL] at hr
    unfold ReqOk at hr
    simp only at hr ⊢
    by_cases h1 : r.recv = true
    · rw [if_pos h1] at hr
      obtain ⟨k, e, hk⟩ := hr
      obtain ⟨q1, q2, q3⟩ := hp r hL h1
      rw [e, if_pos q1]
      simp only [h1, q2, if_true, Bool.not_false, Bool.and_self]
      obtain ⟨b1, b2⟩ := ok.recv s.sink evs r.comm k st.src st.tag st.bytes hs.inv hk
      rw [whole_size q3]
      by_cases hper : r.persistent = true
      · simp only [hper, if_true]
        refine ⟨b1, hs.bad, ?_⟩
        intro h'
        unfold BB.upd
        by_cases hh : h' = h
        · simp only [hh, if_true]
          rw [e]
          unfold ReqOk
          simp only [h1, if_true]
          exact ⟨k, by rw [hper], b2 _ _ hk⟩
        · simp only [if_neg hh]; exact (hs.reqs h').keep b2
      · have hper : r.persistent = false := by simpa using hper
        simp only [hper, Bool.false_eq_true, if_false]
        have := hs.sink b1 b2
        refine ⟨b1, hs.bad, ?_⟩
        intro h'
        unfold BB.upd
        by_cases hh : h' = h
        · simp only [hh, if_true]; rfl
        · simp only [if_neg hh]; exact (hs.reqs h').keep b2
    · have h1' : r.recv = false := by simpa using h1
      rw [if_neg h1] at hr
      by_cases hper : r.persistent = true
      · rw [if_pos hper] at hr
        obtain ⟨k, e, hk⟩ := hr
        rw [e]
        simp only [Bool.false_eq_true, if_false, if_true, h1', hper]
        have hS : ∀ b : Bool, Sim I K (BB.upd L h (some { r with active := b })) s evs := by
          intro b
          refine ⟨hs.inv, hs.bad, ?_⟩
          intro h'
          unfold BB.upd
          by_cases hh : h' = h
          · simp only [hh, if_true]
            rw [e]
            unfold ReqOk
            simp only [h1', hper, Bool.false_eq_true, if_false, if_true]
            exact ⟨k, rfl, hk⟩
          · simp only [if_neg hh]; exact hs.reqs h'
        split
        · simpa [h1', hper] using hS false
        · simpa using hs
      · rw [if_neg hper] at hr
        have hper' : r.persistent = false := by simpa using hper
        rw [hr]
        simp only [h1', hper', Bool.false_and, Bool.false_eq_true, if_false]
        split
        · refine ⟨by simpa using hs.inv, hs.bad, ?_⟩
          intro h'
          unfold BB.upd
          by_cases hh : h' = h
          · simp only [hh, if_true]; exact hr
          · simp only [if_neg hh]; exact hs.reqs h'
        · simpa using hs

theorem sim_completes (ok : SinkOk S G I K) (l : List (Nat × Status)) : ∀ {L : Live} {s : St σ κ} {evs : List MEv}, Sim I K L s evs → PlainCompl L l →
    Sim I K (completes L l).1 (completion S s l) (evs ++ (completes L l).2) := by
  induction l with
  | nil => intro L s evs hs _; simpa [completes, completion] using hs
  | cons p l ih =>
    intro L s evs hs hp
    obtain ⟨h, st⟩ := p
    have h1 := sim_complete ok hs hp.1
    have h2 := ih h1 hp.2
    simpa [completes, completion, List.append_assoc] using h2

theorem sim_starts (ok : SinkOk S G I K) (hs : List Nat) : ∀ {L : Live} {s : St σ κ} {evs : List MEv}, Sim I K L s evs → hs.Nodup →
    (∀ h ∈ hs, ∃ r, L h = some r ∧ r.persistent = true ∧ r.active = false) →
    Sim I K (starts L hs).1 (handleStart S s hs) (evs ++ (starts L hs).2) := by
  induction hs with
  | nil => intro L s evs hs _ _; simpa [starts, handleStart] using hs
  | cons h hl ih =>
    intro L s evs hs hn hp
    obtain ⟨r, hL, hper, -⟩ := hp h (by simp)
    have hr := hs.reqs h
    rw [hL] at hr
    have hn' := List.nodup_cons.1 hn
    have hp' : ∀ h' ∈ hl, ∃ r', BB.upd L h (some { r with active := true }) h' = some r' ∧ r'.persistent = true ∧ r'.active = false := by
      intro h' hh'
      have : h' ≠ h := by rintro rfl; exact hn'.1 hh'
      unfold BB.upd
      simp only [if_neg this]
      exact hp h' (by simp [hh'])
    unfold starts handleStart
    rw [hL]
    unfold ReqOk at hr
    simp only at hr ⊢
    by_cases h1 : r.recv = true
    · rw [if_pos h1] at hr
      obtain ⟨k, e, hk⟩ := hr
      rw [e]
      simp only [if_pos h1, if_true, List.nil_append]
      refine ih ?_ hn'.2 hp'
      refine ⟨hs.inv, hs.bad, ?_⟩
      intro h'
      unfold BB.upd
      by_cases hh : h' = h
      · simp only [hh, if_true]
        rw [e]
        unfold ReqOk
        simp only [h1, if_true]
        exact ⟨k, rfl, hk⟩
      · simp only [if_neg hh]; exact hs.reqs h'
    · have h1' : r.recv = false := by simpa using h1
      rw [if_neg h1, if_pos hper] at hr
      obtain ⟨k, e, hk⟩ := hr
      rw [e]
      simp only [if_neg h1, Bool.false_eq_true, if_false]
      obtain ⟨b1, b2⟩ := ok.send s.sink evs r.comm k r.dst r.tag (r.ty * r.count) hs.inv hk
      rw [← List.append_assoc]
      refine ih ?_ hn'.2 hp'
      refine ⟨b1, hs.bad, ?_⟩
      intro h'
      unfold BB.upd
      by_cases hh : h' = h
      · simp only [hh, if_true]
        rw [e]
        unfold ReqOk
        simp only [h1', hper, Bool.false_eq_true, if_false, if_true]
        exact ⟨k, rfl, b2 _ _ hk⟩
      · simp only [if_neg hh]; exact (hs.reqs h').keep b2

/-- starting requests unseen -/
theorem sim_starts_unseen (hs : List Nat) : ∀ {L : Live} {s : St σ κ} {evs : List MEv}, Sim I K L s evs → Sim I K (starts L hs).1 s evs := by
  induction hs with
  | nil => intro L s evs hs; exact hs
  | cons h hl ih =>
    intro L s evs hs
    unfold starts
    cases hL : L h with
    | none => exact ih hs
    | some r =>
      simp only
      apply ih
      refine ⟨hs.inv, hs.bad, ?_⟩
      intro h'
      unfold BB.upd
      by_cases hh : h' = h
      · simp only [hh, if_true]
        have := hs.reqs h
        rw [hL] at this
        exact this
      · simp only [if_neg hh]; exact hs.reqs h'

theorem sum_nn (l : List Int) : (∀ x ∈ l, 0 ≤ x) → 0 ≤ l.sum := by
  induction l with
  | nil => intro _; simp
  | cons x l ih =>
    intro h
    have h1 := h x (by simp)
    have h2 := ih fun y hy => h y (by simp [hy])
    simp only [List.sum_cons]
    omega

theorem accum_aux (l : List Int) : ∀ a : Int, 0 ≤ a → (∀ x ∈ l, 0 ≤ x) → Fits (a + l.sum) → l.foldl (fun a x => i32 (a + x)) a = a + l.sum := by
  induction l with
  | nil => intro a _ _ _; simp
  | cons x l ih =>
    intro a ha hl hf
    have hx := hl x (by simp)
    have hs : 0 ≤ l.sum := sum_nn l fun y hy => hl y (by simp [hy])
    simp only [List.sum_cons] at hf
    have h1 : Fits (a + x) := by unfold Fits at *; omega
    simp only [List.foldl_cons, List.sum_cons]
    rw [i32_fits h1, ih (a + x) (by omega) (fun y hy => hl y (by simp [hy])) (by rw [Int.add_assoc]; exact hf)]
    omega

theorem accum_eq {l : List Int} (hl : ∀ x ∈ l, 0 ≤ x) (hf : Fits l.sum) : accum l = l.sum := by
  have := accum_aux l 0 (by omega) hl (by simpa using hf)
  simpa [accum] using this

theorem fits_zero : Fits 0 := by unfold Fits; omega

theorem sim_coll1 (ok : SinkOk S G I K) {L : Live} {s : St σ κ} {evs : List MEv} (hs : Sim I K L s evs) {c : Comm} (hg : G c) (k : CKind) (n root : Int) :
    Sim I K L { s with sink := S.coll (S.comm s.sink c).1 (S.comm s.sink c).2 k n root } (evs ++ [.coll c k n root]) := by
  obtain ⟨a1, a2, a3⟩ := ok.comm s.sink evs c hs.inv hg
  obtain ⟨b1, b2⟩ := ok.coll _ _ _ _ k n root a1 a2
  exact hs.sink b1 fun c k h => b2 _ _ (a3 _ _ h)

theorem sim_coll (ok : SinkOk S G I K) {L : Live} {s : St σ κ} {evs : List MEv} (hs : Sim I K L s evs) {c : Comm} (hg : G c) {k : Coll} (hp : k.Plain c) :
    Sim I K L (handleColl S s c k) (evs ++ [.coll c k.kind.1 (k.bytes c) k.kind.2]) := by
  have h1 := fun kd n root => sim_coll1 ok hs hg kd n root
  have z : ∀ ty : Nat, i32 (0 * (ty : Int)) = 0 := fun ty => by rw [Int.zero_mul]; exact i32_fits fits_zero
  have r12 : ∀ (n : Int) (ty : Nat) (root : Int), Fits (n * ty) →
      Sim I K L (handle12n S s n ty root c) (evs ++ [.coll c .oneToN (if c.rank = root then n * ty else 0) root]) := by
    intro n ty root hf
    unfold handle12n
    dsimp only
    by_cases hr : c.rank = root
    · simp only [hr, if_true]; rw [i32_fits hf]; exact h1 ..
    · simp only [if_neg hr]; rw [z]; exact h1 ..
  have r21 : ∀ (n : Int) (ty : Nat) (root : Int), Fits (n * ty) →
      Sim I K L (handleN21 S s n ty root c) (evs ++ [.coll c .nToOne (if c.rank = root then 0 else n * ty) root]) := by
    intro n ty root hf
    unfold handleN21
    dsimp only
    by_cases hr : c.rank = root
    · simp only [hr, if_true, ne_eq, not_true_eq_false, if_false]; rw [z]; exact h1 ..
    · simp only [if_neg hr, ne_eq, not_false_eq_true, if_true, hr]; rw [i32_fits hf]; exact h1 ..
  have rnn : ∀ (n : Int) (ty : Nat), Fits (n * ty) → Sim I K L (handleN2n S s n ty c) (evs ++ [.coll c .nxn (n * ty) 0]) := by
    intro n ty hf
    unfold handleN2n
    dsimp only
    rw [i32_fits hf]
    exact h1 ..
  cases k with
  | barrier => exact h1 ..
  | bcast n ty root => exact r12 n ty root hp
  | scatter n ty root =>
    cases ty with
    | none => exact absurd hp (by simp [Coll.Plain])
    | some ty =>
      obtain ⟨p1, p2⟩ := hp
      have := r12 n ty root p2
      by_cases hr : c.rank = root
      · simpa [handleColl, Coll.bytes, Coll.kind, hr, p1 hr] using this
      · simpa [handleColl, Coll.bytes, Coll.kind, hr] using this
  | scatterv a b t root => exact absurd hp (by simp [Coll.Plain])
  | gather n ty root => exact r21 n ty root hp
  | gatherv n ty root => exact r21 n ty root hp
  | reduce n ty root => exact r21 n ty root hp
  | scan n ty => exact rnn n ty hp
  | allreduce n ty => exact rnn n ty hp
  | allgather n ty => exact rnn n ty hp
  | allgatherv n ty => exact rnn n ty hp
  | reduceScatter counts ty =>
    obtain ⟨p1, p2, p3, p4⟩ := hp
    obtain ⟨x, rfl⟩ := List.length_eq_one_iff.1 p3
    have := rnn x ty (by simpa using p4)
    simpa [handleColl, Coll.bytes, Coll.kind, p2] using this
  | alltoall n ty =>
    obtain ⟨p1, p2⟩ := hp
    have := rnn (c.ranks.length * n) ty p2
    simpa [handleColl, Coll.bytes, Coll.kind, i32_fits p1] using this
  | alltoallv counts ty =>
    obtain ⟨p1, p2, p3⟩ := hp
    have := rnn counts.sum ty p3
    simpa [handleColl, Coll.bytes, Coll.kind, accum_eq p1 p2] using this

theorem completionSome_eq (S : Sink σ κ) (hs : List Nat) (sts : List Status) (idx : List Nat) : ∀ (s : St σ κ), (∀ k ∈ idx, k < hs.length) →
    sts.length = hs.length →
    completionSome S s hs sts idx = completion S s (idx.filterMap fun k => match hs[k]?, sts[k]? with | some h, some st => some (h, st) | _, _ => none) := by
  induction idx with
  | nil => intro s _ _; rfl
  | cons k idx ih =>
    intro s h1 h2
    have hk := h1 k (by simp)
    have e1 : hs[k]? = some hs[k] := List.getElem?_eq_getElem hk
    have e2 : sts[k]? = some (sts[k]'(by omega)) := List.getElem?_eq_getElem (by omega)
    unfold completionSome
    rw [e1, e2]
    simp only
    rw [ih _ (fun k' h' => h1 k' (by simp [h'])) h2]
    simp only [List.filterMap_cons, e1, e2]
    rfl

theorem some_pairs (hs : List Nat) (sts : List Status) (idx : List Nat) : ∀ (ss : List Status), (∀ k ∈ idx, k < hs.length) → sts.length = hs.length →
    idx.length ≤ ss.length → (∀ (k i : Nat), idx[k]? = some i → sts[i]? = ss[k]?) →
    (idx.filterMap fun k => match hs[k]?, sts[k]? with | some h, some st => some (h, st) | _, _ => none) =
      (idx.zip ss).filterMap fun p => (hs[p.1]?).map fun h => (h, p.2) := by
  induction idx with
  | nil => intro ss _ _ _ _; rfl
  | cons k idx ih =>
    intro ss h1 h2 h3 h4
    cases ss with
    | nil => simp at h3
    | cons t ss =>
      have hk := h1 k (by simp)
      have e1 : hs[k]? = some hs[k] := List.getElem?_eq_getElem hk
      have e2 : sts[k]? = some t := by have := h4 0 k rfl; simpa using this
      simp only [List.filterMap_cons, List.zip_cons_cons, e1, e2, Option.map_some]
      rw [ih ss (fun k' h' => h1 k' (by simp [h'])) h2 (by simpa using h3) (fun k' i h => by have := h4 (k' + 1) i (by simpa using h); simpa using this)]

theorem sim_handle (ok : SinkOk S G I K) {L : Live} {s : St σ κ} {evs : List MEv} (hs : Sim I K L s evs) {c : Call} (hp : c.Plain L) (hg : ∀ x ∈ c.comms, G x) :
    Sim I K (effect L c).1 (handle S s c) (evs ++ (effect L c).2) := by
  cases c with
  | send n ty dst tag c h =>
    have h1 := sim_send ok hs (dst := dst) (tag := tag) hp.1 (hg c (by simp [Call.comms]))
    cases h with
    | none => exact h1
    | some h =>
      have hL := hp.2 h rfl
      have hr := h1.reqs h
      rw [hL] at hr
      refine ⟨h1.inv, h1.bad, ?_⟩
      intro h'
      show ReqOk K (handleSend S s n ty dst tag c).sink ((handleSend S s n ty dst tag c).reqs h') (BB.upd L h _ h')
      unfold BB.upd
      by_cases hh : h' = h
      · simp only [hh, if_true]
        unfold ReqOk
        simp only [Bool.false_eq_true, if_false]
        exact hr
      · simp only [if_neg hh]; exact h1.reqs h'
  | sendInit n ty dst tag c h =>
    obtain ⟨a1, a2, a3⟩ := ok.comm s.sink evs c hs.inv (hg c (by simp [Call.comms]))
    simp only [effect, List.append_nil, handle, handleSendInit]
    rw [i32_fits hp.1]
    apply hs.updReq a1 a3
    unfold ReqOk
    simp only [Bool.false_eq_true, if_false, if_true]
    exact ⟨_, rfl, a2⟩
  | recv ty c st => exact sim_recv ok hs hp (hg c (by simp [Call.comms]))
  | irecv ty c h =>
    obtain ⟨a1, a2, a3⟩ := ok.comm s.sink evs c hs.inv (hg c (by simp [Call.comms]))
    simp only [effect, List.append_nil, handle, handleIrecv]
    apply hs.updReq a1 a3
    unfold ReqOk
    simp only [if_true]
    exact ⟨_, rfl, a2⟩
  | recvInit ty c h =>
    obtain ⟨a1, a2, a3⟩ := ok.comm s.sink evs c hs.inv (hg c (by simp [Call.comms]))
    simp only [effect, List.append_nil, handle, handleIrecv]
    apply hs.updReq a1 a3
    unfold ReqOk
    simp only [if_true]
    exact ⟨_, rfl, a2⟩
  | sendrecv n sty dst tag rty c st =>
    have h1 := sim_send ok hs (dst := dst) (tag := tag) hp.1 (hg c (by simp [Call.comms]))
    have h2 := sim_recv ok h1 hp.2 (hg c (by simp [Call.comms]))
    simpa [effect, handle] using h2
  | start l => exact sim_starts ok l hs hp.1 hp.2
  | wait h st => exact sim_completes ok _ hs hp
  | waitall l sts => exact sim_completes ok _ hs hp
  | waitany l i st =>
    obtain ⟨p1, p2⟩ := hp
    have h1 := sim_completes ok _ hs p2
    by_cases hl : l = []
    · subst hl
      simpa [handle, effect, Call.completed, completes, completion] using h1
    · obtain ⟨q1, q2⟩ := p1 hl
      have e : l[i.toNat]? = some (l[i.toNat]'(by omega)) := List.getElem?_eq_getElem (by omega)
      have e' : Call.completed (.waitany l i st) = [(l[i.toNat]'(by omega), st)] := by
        simp only [Call.completed]
        rw [if_neg (by omega), e]; rfl
      rw [e'] at h1
      have e2 : handle S s (.waitany l i st) = completion S s [(l[i.toNat]'(by omega), st)] := by
        simp only [handle, completionAt]
        rw [if_pos (List.length_pos_iff.2 hl), if_neg (by omega), e]
      have e3 : effect L (.waitany l i st) = completes L [(l[i.toNat]'(by omega), st)] := by
        show completes L (Call.completed (.waitany l i st)) = _
        rw [e']
      rw [e2, e3]
      exact h1
  | waitsome l idx sts =>
    obtain ⟨p1, p2, p3, p4, p5⟩ := hp
    have h1 := sim_completes ok _ hs p5
    show Sim I K (completes L (Call.completed (.waitsome l idx sts))).1 (completionSome S s l sts idx) (evs ++ (completes L (Call.completed (.waitsome l idx sts))).2)
    rw [completionSome_eq S l sts idx s p1 p2, some_pairs l sts idx sts p1 p2 p3 p4]
    exact h1
  | test h flag st =>
    have h1 := sim_completes ok _ hs (show PlainCompl L (Call.completed (.test h flag st)) from hp)
    cases flag with
    | true => exact h1
    | false => simpa [handle, effect, Call.completed, completes, completion] using h1
  | testall l flag sts =>
    have h1 := sim_completes ok _ hs (show PlainCompl L (Call.completed (.testall l flag sts)) from hp)
    cases flag with
    | true => exact h1
    | false => simpa [handle, effect, Call.completed, completes, completion] using h1
  | testany l flag i st =>
    obtain ⟨p1, p2⟩ := hp
    have h1 := sim_completes ok _ hs p2
    cases flag with
    | false => simpa [handle, effect, Call.completed, completes, completion] using h1
    | true =>
      obtain ⟨q1, q2⟩ := p1 rfl
      have e : l[i.toNat]? = some (l[i.toNat]'(by omega)) := List.getElem?_eq_getElem (by omega)
      have e' : Call.completed (.testany l true i st) = [(l[i.toNat]'(by omega), st)] := by
        simp only [Call.completed, Bool.true_and, decide_eq_true_eq]
        rw [if_pos q1, e]; rfl
      rw [e'] at h1
      have e2 : handle S s (.testany l true i st) = completion S s [(l[i.toNat]'(by omega), st)] := by
        simp only [handle, completionAt, if_true]
        rw [if_neg (by omega), e]
      have e3 : effect L (.testany l true i st) = completes L [(l[i.toNat]'(by omega), st)] := by
        show completes L (Call.completed (.testany l true i st)) = _
        rw [e']
      rw [e2, e3]
      exact h1
  | requestFree h =>
    simp only [effect, List.append_nil, handle]
    exact hs.updReq hs.inv (fun _ _ h => h) rfl
  | coll k c => exact sim_coll ok hs (hg c (by simp [Call.comms])) hp

theorem sim_unseen {L : Live} {s : St σ κ} {evs : List MEv} (hs : Sim I K L s evs) {c : Call} (hp : c.Plain L) (hm : c.managed = false) :
    Sim I K (effect L c).1 s evs := by
  cases c with
  | send n ty dst tag c h =>
    cases h with
    | none => exact hs
    | some h =>
      have hL := hp.2 h rfl
      have hr := hs.reqs h
      rw [hL] at hr
      refine ⟨hs.inv, hs.bad, ?_⟩
      intro h'
      show ReqOk K s.sink (s.reqs h') (BB.upd L h _ h')
      unfold BB.upd
      by_cases hh : h' = h
      · simp only [hh, if_true]
        unfold ReqOk
        simp only [Bool.false_eq_true, if_false]
        exact hr
      · simp only [if_neg hh]; exact hs.reqs h'
  | recv => exact hs
  | sendrecv => exact hs
  | start l => exact sim_starts_unseen l hs
  | coll => exact hs
  | _ => simp [Call.managed] at hm

theorem sim_run (ok : SinkOk S G I K) (l : List Step) : ∀ {L : Live} {s : St σ κ} {evs : List MEv}, Sim I K L s evs → Plain L l →
    (∀ b c, Step.call b c ∈ l → ∀ x ∈ c.comms, G x) →
    I (run S s l).sink (evs ++ events L l) ∧ (run S s l).bad = false := by
  induction l with
  | nil => intro L s evs hs _ _; simpa [run, events] using ⟨hs.inv, hs.bad⟩
  | cons p l ih =>
    intro L s evs hs hp hg
    have hg' : ∀ b c, Step.call b c ∈ l → ∀ x ∈ c.comms, G x := fun b c h => hg b c (by simp [h])
    cases p with
    | call seen c =>
      obtain ⟨p1, p2, p3⟩ := hp
      cases seen with
      | true =>
        have h1 := sim_handle ok hs p1 (hg true c (by simp))
        have := ih h1 p3 hg'
        simpa [run, events, step, List.append_assoc] using this
      | false =>
        have hm : c.managed = false := by
          cases hc : c.managed with
          | false => rfl
          | true => exact absurd (p2 hc) (by simp)
        have := ih (sim_unseen hs p1 hm) p3 hg'
        simpa [run, events, step] using this
    | begin =>
      obtain ⟨b1, b2⟩ := ok.begin _ _ hs.inv
      have := ih (hs.sink b1 b2) hp hg'
      simpa [run, events, step, List.append_assoc] using this
    | fin =>
      obtain ⟨b1, b2⟩ := ok.fin _ _ hs.inv
      have := ih (hs.sink b1 b2) hp hg'
      simpa [run, events, step, List.append_assoc] using this
end

end Verif.MpiMsg
