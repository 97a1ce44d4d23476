import Verif.Hub.CaptureMore
/-!
# What the hub records of a request and of its result (property C61)
-/
namespace IPP.Capture

open IPP.DB

/-! ### specification -/

/-- the record tells this request -/
structure Tells (r : Rec) (k : Kind) (m : Id) (q : Req) : Prop where
  id : r.get "msg_id" = .text m
  header : r.get "header" = .obj q.header
  metadata : r.get "metadata" = .obj q.metadata
  content : r.get "content" = .obj q.content
  buffers : r.get "buffers" = .bufs q.bufs
  submitted : r.get "submitted" = .date q.date
  client : r.get "client_uuid" = .text q.session
  queue : r.get "queue" = .text (match k with
    | .mux _ => "mux"
    | .task => "task")
  label : r.get "label" = q.label

/-- the record tells this result -/
structure TellsResult (r : Rec) (p : Rep) : Prop where
  header : r.get "result_header" = .obj p.header
  metadata : r.get "result_metadata" = .obj p.metadata
  content : r.get "result_content" = .obj p.content
  buffers : r.get "result_buffers" = .bufs p.bufs
  started : r.get "started" = match p.started with
    | some t => .date t
    | none => .null
  completed : r.get "completed" = .date p.completed
  received : r.get "received" = .date p.received

/-- the event is a request for `m`, a result of `m` -/
def CEv.isResult (m : Id) : CEv → Bool
  | .result _ m' _ => m' = m
  | _ => false

def CEv.isMuxResult (m : Id) : CEv → Bool
  | .result (.mux _) m' _ => m' = m
  | _ => false

/-! ### proofs -/

def reqKeys : List Key := ["msg_id", "header", "metadata", "content", "buffers", "submitted", "client_uuid", "queue", "label", "resubmitted"]
def resKeys : List Key := ["result_header", "result_metadata", "result_content", "result_buffers", "started", "completed", "received"]

theorem req_not_out {k : Key} (h : k ∈ reqKeys) : k ∉ outKeys ∧ k ≠ "engine_uuid" ∧ k ∉ resKeys := by
  simp only [reqKeys, List.mem_cons, List.not_mem_nil, or_false] at h
  rcases h with rfl | rfl | rfl | rfl | rfl | rfl | rfl | rfl | rfl | rfl <;> decide

theorem res_not_out {k : Key} (h : k ∈ resKeys) : k ∉ outKeys ∧ k ≠ "engine_uuid" := by
  simp only [resKeys, List.mem_cons, List.not_mem_nil, or_false] at h
  rcases h with rfl | rfl | rfl | rfl | rfl | rfl | rfl <;> decide

theorem result_frame (k : Kind) (p : Rep) (e : Rec) {key : Key} (h1 : key ∉ resKeys) (h2 : key ≠ "engine_uuid") : (resultFields k p ++ e).get key = e.get key := by
  rw [get_app, if_neg]
  rintro ⟨kv, hkv, rfl⟩
  have : kv.1 ∈ resKeys ∨ kv.1 = "engine_uuid" := by
    cases k with
    | mux u =>
      simp only [resultFields, List.append_nil, List.mem_cons, List.not_mem_nil, or_false] at hkv
      rcases hkv with rfl | rfl | rfl | rfl | rfl | rfl | rfl <;> simp [resKeys]
    | task =>
      simp only [resultFields, List.cons_append, List.nil_append, List.mem_cons, List.not_mem_nil, or_false] at hkv
      rcases hkv with rfl | rfl | rfl | rfl | rfl | rfl | rfl | rfl <;> simp [resKeys]
  rcases this with h | h
  · exact h1 h
  · exact h2 h

theorem dest_frame (u : String) (e : Rec) {key : Key} (h : key ≠ "engine_uuid") : ([("engine_uuid", .text u)] ++ e : Rec).get key = e.get key := by
  rw [get_app, if_neg]
  rintro ⟨kv, hkv, rfl⟩
  rw [List.mem_singleton] at hkv
  exact h (by rw [hkv])

/-- the fields of the request that no other event touches -/
theorem req_step {m : Id} {p d : Bool} {old : Rec} {e : CEv} (h1 : e.isRequest m = false) (h2 : e ≠ .purge m) {key : Key} (hk : key ∈ reqKeys) :
    ∃ r, recStep m p d (some old) e = some r ∧ r.get key = old.get key := by
  have hk' := req_not_out hk
  cases e with
  | request k m' q => simp only [CEv.isRequest, decide_eq_false_iff_not] at h1; exact ⟨old, by simp [recStep, h1], rfl⟩
  | result k m' r =>
    simp only [recStep]
    split
    · exact ⟨_, rfl, result_frame k r old hk'.2.2 hk'.2.1⟩
    · exact ⟨_, rfl, rfl⟩
  | destination m' u =>
    simp only [recStep]
    split
    · exact ⟨_, rfl, dest_frame u old hk'.2.1⟩
    · exact ⟨_, rfl, rfl⟩
  | iopub m' o =>
    simp only [recStep]
    split
    · exact ⟨_, rfl, out_frame _ o _ key hk'.1⟩
    · exact ⟨_, rfl, rfl⟩
  | purge m' =>
    refine ⟨old, ?_, rfl⟩
    simp only [recStep]
    rw [if_neg]
    rintro ⟨rfl, _⟩
    exact h2 rfl

/-- before the request there is at most a record made by output -/
theorem before_request (c : Cfg) (m : Id) : ∀ (evs : List CEv), (∀ e ∈ evs, e.isRequest m = false) → NoPurge m evs → m ∉ (crun c evs).db.culled →
    ∀ r, lookup (crun c evs).db m = some r → ∀ key ∈ reqKeys, r.get key = (emptyRecord m).get key := by
  refine snoc_ind ?_ ?_
  · intro _ _ _ r hr
    cases hr
  · intro evs e ih hq hp hm r hr key hk
    have hI := cinv_run c evs
    rw [crun_snoc] at hm hr
    have hm0 := culled_step c hI e hm
    rw [look_step c hI e hm] at hr
    have hq0 : ∀ e ∈ evs, e.isRequest m = false := fun x hx => hq x (List.mem_append_left _ hx)
    have he := hq e (by simp)
    have hpe : e ≠ .purge m := fun h => hp (by simp [h])
    cases hl : lookup (crun c evs).db m with
    | some old =>
      rw [hl] at hr
      rcases req_step (p := decide (m ∈ (crun c evs).pending)) (d := decide (m ∈ (crun c evs).done)) (old := old) he hpe hk with ⟨r', h1, h2⟩
      rw [h1] at hr
      cases hr
      rw [h2]
      exact ih hq0 (fun h => hp (List.mem_append_left _ h)) hm0 old hl key hk
    | none =>
      rw [hl] at hr
      cases e with
      | request k m' q =>
        simp only [CEv.isRequest, decide_eq_false_iff_not] at he
        simp [recStep, he] at hr
      | result k m' p => simp only [recStep] at hr; split at hr <;> cases hr
      | destination m' u => simp only [recStep] at hr; split at hr <;> cases hr
      | purge m' => simp only [recStep] at hr; split at hr <;> cases hr
      | iopub m' o =>
        simp only [recStep] at hr
        split at hr
        · cases hr
          rw [Option.getD_none]
          exact out_frame _ o _ key (req_not_out hk).1
        · cases hr

/-- right after the request -/
theorem at_request (k : Kind) (m : Id) (q : Req) (p d : Bool) (old : Option Rec) (h : ∀ r, old = some r → ∀ key ∈ reqKeys, r.get key = (emptyRecord m).get key) :
    ∃ r, recStep m p d old (.request k m q) = some r ∧ ∀ key ∈ reqKeys, r.get key = (initRecord k m q).get key := by
  cases old with
  | none => exact ⟨_, by simp [recStep], fun _ _ => rfl⟩
  | some e =>
    refine ⟨merge k e (resubmitPop k e (initRecord k m q)) ++ e, by simp [recStep], ?_⟩
    intro key hk
    rw [merged_congr k m q e (emptyRecord m) key (h e rfl key hk) (h e rfl "resubmitted" (by simp [reqKeys]))]
    exact merged_empty k m q (emptyRecord m) key (fun _ _ => rfl) (req_not_out hk).1

theorem after_request (c : Cfg) (m : Id) (k : Kind) (q : Req) (a : List CEv) (ha : ∀ e ∈ a, e.isRequest m = false) : ∀ (b : List CEv), (∀ e ∈ b, e.isRequest m = false) →
    NoPurge m (a ++ .request k m q :: b) → m ∉ (crun c (a ++ .request k m q :: b)).db.culled →
    ∃ r, lookup (crun c (a ++ .request k m q :: b)).db m = some r ∧ ∀ key ∈ reqKeys, r.get key = (initRecord k m q).get key := by
  refine snoc_ind ?_ ?_
  · intro _ hp hm
    have hI := cinv_run c a
    rw [crun_snoc] at hm ⊢
    have hm0 := culled_step c hI _ hm
    rw [look_step c hI _ hm]
    exact at_request k m q _ _ _ (before_request c m a ha (fun h => hp (List.mem_append_left _ h)) hm0)
  · intro b e ih hb hp hm
    have hsplit : a ++ .request k m q :: (b ++ [e]) = (a ++ .request k m q :: b) ++ [e] := by simp
    rw [hsplit] at hp hm ⊢
    have hI := cinv_run c (a ++ .request k m q :: b)
    rw [crun_snoc] at hm ⊢
    have hm0 := culled_step c hI e hm
    rw [look_step c hI e hm]
    rcases ih (fun x hx => hb x (List.mem_append_left _ hx)) (fun h => hp (List.mem_append_left _ h)) hm0 with ⟨r, h1, h2⟩
    rw [h1]
    have hk0 : "header" ∈ reqKeys := by simp [reqKeys]
    rcases req_step (p := decide (m ∈ (crun c (a ++ .request k m q :: b)).pending)) (d := decide (m ∈ (crun c (a ++ .request k m q :: b)).done)) (old := r)
      (hb e (by simp)) (fun h => hp (by simp [h])) hk0 with ⟨r', h3, _⟩
    refine ⟨r', h3, ?_⟩
    intro key hk
    rcases req_step (p := decide (m ∈ (crun c (a ++ .request k m q :: b)).pending)) (d := decide (m ∈ (crun c (a ++ .request k m q :: b)).done)) (old := r)
      (hb e (by simp)) (fun h => hp (by simp [h])) hk with ⟨r'', h4, h5⟩
    rw [h3] at h4
    cases h4
    rw [h5, h2 key hk]

/-- **C61 (request)** While a task is neither purged nor evicted, its record tells exactly the request that was submitted — header, content, metadata, label, every buffer,
the time and the client —, whatever output, destinations and results arrive before and after it. -/
theorem request_recorded (c : Cfg) (m : Id) (k : Kind) (q : Req) (a b : List CEv) (ha : ∀ e ∈ a, e.isRequest m = false) (hb : ∀ e ∈ b, e.isRequest m = false)
    (hp : NoPurge m (a ++ .request k m q :: b)) (hm : m ∉ (crun c (a ++ .request k m q :: b)).db.culled) :
    ∃ r, get (crun c (a ++ .request k m q :: b)).db m = some r ∧ Tells r k m q := by
  rcases after_request c m k q a ha b hb hp hm with ⟨r, h1, h2⟩
  refine ⟨r, by rw [get_uncut hm, h1], ?_⟩
  constructor
  all_goals rw [h2 _ (by simp [reqKeys])]; rfl

/-! ### results -/

theorem pending_step (c : Cfg) (s : CHub) (m : Id) (e : CEv) (h : m ∈ s.pending) (he : e.isResult m = false) : m ∈ (cstep c s e).pending := by
  cases e with
  | request k m' q =>
    simp only [cstep, request]
    split
    · exact h
    · exact List.mem_append_left _ h
  | result k m' p =>
    simp only [CEv.isResult, decide_eq_false_iff_not] at he
    simp only [cstep, result]
    split
    · simp only [List.mem_filter]; exact ⟨h, by simp only [decide_eq_true_eq]; exact fun e => he e.symm⟩
    · split
      · split <;> exact h
      · exact h
  | destination m' u => exact h
  | iopub m' o => rw [(tables_out c s m' o).1]; exact h
  | purge m' => simp only [cstep, purge]; split <;> exact h

theorem pending_run (c : Cfg) (m : Id) (k : Kind) (q : Req) (a : List CEv) : ∀ b : List CEv, (∀ e ∈ b, e.isResult m = false) → m ∈ (crun c (a ++ .request k m q :: b)).pending := by
  refine snoc_ind ?_ ?_
  · intro _
    rw [crun_snoc]
    simp only [cstep, request]
    split
    · assumption
    · simp
  · intro b e ih hb
    have hsplit : a ++ .request k m q :: (b ++ [e]) = (a ++ .request k m q :: b) ++ [e] := by simp
    rw [hsplit, crun_snoc]
    exact pending_step c _ m e (ih (fun x hx => hb x (List.mem_append_left _ hx))) (hb e (by simp))

/-- after the result has been accepted the task is no longer pending until it is requested again -/
theorem not_pending_step (c : Cfg) (s : CHub) (m : Id) (e : CEv) (h : m ∉ s.pending) (he : e.isRequest m = false) : m ∉ (cstep c s e).pending := by
  cases e with
  | request k m' q =>
    simp only [CEv.isRequest, decide_eq_false_iff_not] at he
    simp only [cstep, request]
    split
    · exact h
    · simp only [List.mem_append, List.mem_singleton, not_or]; exact ⟨h, fun e => he e.symm⟩
  | result k m' p =>
    simp only [cstep, result]
    split
    · simp only [List.mem_filter]; exact fun hx => h hx.1
    · split
      · split <;> exact h
      · exact h
  | destination m' u => exact h
  | iopub m' o => rw [(tables_out c s m' o).1]; exact h
  | purge m' => simp only [cstep, purge]; split <;> exact h

theorem res_step {m : Id} {d : Bool} {old : Rec} {e : CEv} (h1 : e.isRequest m = false) (h2 : e ≠ .purge m) (h3 : e.isMuxResult m = false) {key : Key} (hk : key ∈ resKeys) :
    ∃ r, recStep m false d (some old) e = some r ∧ r.get key = old.get key := by
  have hk' := res_not_out hk
  cases e with
  | request k m' q => simp only [CEv.isRequest, decide_eq_false_iff_not] at h1; exact ⟨old, by simp [recStep, h1], rfl⟩
  | result k m' r =>
    refine ⟨old, ?_, rfl⟩
    simp only [recStep]
    rw [if_neg]
    rintro ⟨rfl, hx | ⟨hx, _⟩⟩
    · cases hx
    · cases k with
      | mux u => simp [CEv.isMuxResult] at h3
      | task => exact hx rfl
  | destination m' u =>
    simp only [recStep]
    split
    · exact ⟨_, rfl, dest_frame u old hk'.2⟩
    · exact ⟨_, rfl, rfl⟩
  | iopub m' o =>
    simp only [recStep]
    split
    · exact ⟨_, rfl, out_frame _ o _ key hk'.1⟩
    · exact ⟨_, rfl, rfl⟩
  | purge m' =>
    refine ⟨old, ?_, rfl⟩
    simp only [recStep]
    rw [if_neg]
    rintro ⟨rfl, _⟩
    exact h2 rfl

theorem after_result (c : Cfg) (m : Id) (k : Kind) (p : Rep) (a : List CEv) (hpend : m ∈ (crun c a).pending) (hreq : ∃ e ∈ a, e.isRequest m = true) :
    ∀ b : List CEv, (∀ e ∈ b, e.isRequest m = false) → (∀ e ∈ b, e.isMuxResult m = false) →
    NoPurge m (a ++ .result k m p :: b) → m ∉ (crun c (a ++ .result k m p :: b)).db.culled →
    m ∉ (crun c (a ++ .result k m p :: b)).pending ∧
    ∃ r, lookup (crun c (a ++ .result k m p :: b)).db m = some r ∧ ∀ key ∈ resKeys, r.get key = (resultFields k p).get key := by
  refine snoc_ind ?_ ?_
  · intro _ _ hp hm
    have hI := cinv_run c a
    rw [crun_snoc] at hm ⊢
    have hm0 := culled_step c hI _ hm
    constructor
    · simp only [cstep, result, if_pos hpend]
      simp
    · rw [look_step c hI _ hm]
      have hs := requested_look c m a (fun h => hp (List.mem_append_left _ h)) hm0 hreq
      cases hl : lookup (crun c a).db m with
      | none => rw [hl] at hs; cases hs
      | some old =>
        refine ⟨resultFields k p ++ old, ?_, ?_⟩
        · simp [recStep, hpend]
        · intro key hk
          rw [get_app, if_pos]
          simp only [resKeys, List.mem_cons, List.not_mem_nil, or_false] at hk
          rcases hk with rfl | rfl | rfl | rfl | rfl | rfl | rfl <;> simp [resultFields]
  · intro b e ih hb1 hb2 hp hm
    have hsplit : a ++ .result k m p :: (b ++ [e]) = (a ++ .result k m p :: b) ++ [e] := by simp
    rw [hsplit] at hp hm ⊢
    have hI := cinv_run c (a ++ .result k m p :: b)
    rw [crun_snoc] at hm ⊢
    have hm0 := culled_step c hI e hm
    rcases ih (fun x hx => hb1 x (List.mem_append_left _ hx)) (fun x hx => hb2 x (List.mem_append_left _ hx)) (fun h => hp (List.mem_append_left _ h)) hm0 with ⟨hnp, r, h1, h2⟩
    refine ⟨not_pending_step c _ m e hnp (hb1 e (by simp)), ?_⟩
    rw [look_step c hI e hm, h1]
    have hpe : e ≠ .purge m := fun h => hp (by simp [h])
    have hf : decide (m ∈ (crun c (a ++ .result k m p :: b)).pending) = false := by simp [hnp]
    rw [hf]
    have hk0 : "completed" ∈ resKeys := by simp [resKeys]
    rcases res_step (d := decide (m ∈ (crun c (a ++ .result k m p :: b)).done)) (old := r) (hb1 e (by simp)) hpe (hb2 e (by simp)) hk0 with ⟨r', h3, _⟩
    refine ⟨r', h3, ?_⟩
    intro key hk
    rcases res_step (d := decide (m ∈ (crun c (a ++ .result k m p :: b)).done)) (old := r) (hb1 e (by simp)) hpe (hb2 e (by simp)) hk with ⟨r'', h4, h5⟩
    rw [h3] at h4
    cases h4
    rw [h5, h2 key hk]

/-- **C61 (result)** The first result that arrives after a request is what the record tells as the result — status, metadata, times, every buffer — whatever arrives later: output,
destinations, and further results of the task queue, which are ignored. (A further result of a direct queue replaces it; see `second_result_replaces_violated`.) -/
theorem result_recorded_partial (c : Cfg) (m : Id) (k k' : Kind) (q : Req) (p : Rep) (a0 a1 b : List CEv)
    (ha : ∀ e ∈ a1, e.isResult m = false) (hb : ∀ e ∈ b, e.isRequest m = false) (hmux : ∀ e ∈ b, e.isMuxResult m = false)
    (hp : NoPurge m (a0 ++ .request k' m q :: a1 ++ .result k m p :: b)) (hm : m ∉ (crun c (a0 ++ .request k' m q :: a1 ++ .result k m p :: b)).db.culled) :
    ∃ r, get (crun c (a0 ++ .request k' m q :: a1 ++ .result k m p :: b)).db m = some r ∧ TellsResult r p := by
  rcases (after_result c m k p (a0 ++ .request k' m q :: a1) (pending_run c m k' q a0 a1 ha) ⟨.request k' m q, by simp, by simp [CEv.isRequest]⟩ b hb hmux hp hm).2 with ⟨r, h1, h2⟩
  refine ⟨r, by rw [get_uncut hm, h1], ?_⟩
  constructor
  all_goals rw [h2 _ (by simp [resKeys])]; cases k <;> rfl

/-! ### the engine -/

/-- the event says where `m` runs -/
def CEv.places (m : Id) : CEv → Bool
  | .destination m' _ => m' = m
  | .result _ m' _ => m' = m
  | .request _ m' _ => m' = m
  | _ => false

theorem engine_step {m : Id} {p d : Bool} {old : Rec} {e : CEv} (h1 : e.places m = false) (h2 : e ≠ .purge m) :
    ∃ r, recStep m p d (some old) e = some r ∧ r.get "engine_uuid" = old.get "engine_uuid" := by
  cases e with
  | request k m' q => simp only [CEv.places, decide_eq_false_iff_not] at h1; exact ⟨old, by simp [recStep, h1], rfl⟩
  | result k m' r => simp only [CEv.places, decide_eq_false_iff_not] at h1; exact ⟨old, by simp [recStep, h1], rfl⟩
  | destination m' u => simp only [CEv.places, decide_eq_false_iff_not] at h1; exact ⟨old, by simp [recStep, h1], rfl⟩
  | iopub m' o =>
    simp only [recStep]
    split
    · exact ⟨_, rfl, out_frame _ o _ _ (by simp [outKeys])⟩
    · exact ⟨_, rfl, rfl⟩
  | purge m' =>
    refine ⟨old, ?_, rfl⟩
    simp only [recStep]
    rw [if_neg]
    rintro ⟨rfl, _⟩
    exact h2 rfl

/-- an event that leaves a record naming engine `u`, and then nothing that says otherwise -/
theorem engine_stays (c : Cfg) (m : Id) (u : String) (e0 : CEv) (a : List CEv)
    (h0 : ∀ old, ∃ r, recStep m (m ∈ (crun c a).pending) (m ∈ (crun c a).done) (some old) e0 = some r ∧ r.get "engine_uuid" = .text u)
    (hreq : ∃ e ∈ a, e.isRequest m = true) : ∀ b : List CEv, (∀ e ∈ b, e.places m = false) →
    NoPurge m (a ++ e0 :: b) → m ∉ (crun c (a ++ e0 :: b)).db.culled →
    ∃ r, lookup (crun c (a ++ e0 :: b)).db m = some r ∧ r.get "engine_uuid" = .text u := by
  refine snoc_ind ?_ ?_
  · intro _ hp hm
    have hI := cinv_run c a
    rw [crun_snoc] at hm ⊢
    have hm0 := culled_step c hI _ hm
    rw [look_step c hI _ hm]
    have hs := requested_look c m a (fun h => hp (List.mem_append_left _ h)) hm0 hreq
    cases hl : lookup (crun c a).db m with
    | none => rw [hl] at hs; cases hs
    | some old => exact h0 old
  · intro b e ih hb hp hm
    have hsplit : a ++ e0 :: (b ++ [e]) = (a ++ e0 :: b) ++ [e] := by simp
    rw [hsplit] at hp hm ⊢
    have hI := cinv_run c (a ++ e0 :: b)
    rw [crun_snoc] at hm ⊢
    have hm0 := culled_step c hI e hm
    rcases ih (fun x hx => hb x (List.mem_append_left _ hx)) (fun h => hp (List.mem_append_left _ h)) hm0 with ⟨r, h1, h2⟩
    rw [look_step c hI e hm, h1]
    rcases engine_step (p := decide (m ∈ (crun c (a ++ e0 :: b)).pending)) (d := decide (m ∈ (crun c (a ++ e0 :: b)).done)) (old := r) (hb e (by simp)) (fun h => hp (by simp [h])) with ⟨r', h3, h4⟩
    exact ⟨r', h3, h4.trans h2⟩

/-- **C61 (destination)** After the scheduler has announced where a task that has been submitted runs, its record names that engine, until the scheduler, a result or a resubmission says otherwise. -/
theorem destination_recorded (c : Cfg) (m : Id) (u : String) (a b : List CEv) (hreq : ∃ e ∈ a, e.isRequest m = true) (hb : ∀ e ∈ b, e.places m = false)
    (hp : NoPurge m (a ++ .destination m u :: b)) (hm : m ∉ (crun c (a ++ .destination m u :: b)).db.culled) :
    ∃ r, get (crun c (a ++ .destination m u :: b)).db m = some r ∧ r.get "engine_uuid" = .text u := by
  rcases engine_stays c m u (.destination m u) a (fun old => ⟨_, by simp only [recStep, if_true]; rfl, rfl⟩) hreq b hb hp hm with ⟨r, h1, h2⟩
  exact ⟨r, by rw [get_uncut hm, h1], h2⟩

/-- **C61 (engine of the result)** The record of a completed task names the engine that its result came from. -/
theorem result_engine_recorded (c : Cfg) (m : Id) (k' : Kind) (q : Req) (p : Rep) (a0 a1 b : List CEv)
    (ha : ∀ e ∈ a1, e.isResult m = false) (hb : ∀ e ∈ b, e.places m = false)
    (hp : NoPurge m (a0 ++ .request k' m q :: a1 ++ .result .task m p :: b)) (hm : m ∉ (crun c (a0 ++ .request k' m q :: a1 ++ .result .task m p :: b)).db.culled) :
    ∃ r, get (crun c (a0 ++ .request k' m q :: a1 ++ .result .task m p :: b)).db m = some r ∧ r.get "engine_uuid" = .text p.engine := by
  have hpend := pending_run c m k' q a0 a1 ha
  rcases engine_stays c m p.engine (.result .task m p) (a0 ++ .request k' m q :: a1) (fun old => ⟨resultFields .task p ++ old, by simp [recStep, hpend], by
    rw [get_app, if_pos ⟨("engine_uuid", .text p.engine), by simp [resultFields], rfl⟩]; rfl⟩) ⟨.request k' m q, by simp, by simp [CEv.isRequest]⟩ b hb hp hm with ⟨r, h1, h2⟩
  exact ⟨r, by rw [get_uncut hm, h1], h2⟩

/-! ### a case -/

theorem ex_split : exEvs = exEvs.take 2 ++ .request .task "t" exQ :: exEvs.drop 3 := rfl

/-- the hypotheses of `request_recorded` are met by a history with output before and after the request -/
example : ∃ r, get (crun exC exEvs).db "t" = some r ∧ Tells r .task "t" exQ := by
  have h := request_recorded exC "t" .task exQ (exEvs.take 2) (exEvs.drop 3) (by decide) (by decide)
  rw [← ex_split] at h
  exact h (by unfold NoPurge; decide +kernel) (by decide +kernel)

theorem ex_split2 : exEvs = exEvs.take 2 ++ .request .task "t" exQ :: (exEvs.drop 3).take 4 ++ .result .task "t" exR :: exEvs.drop 8 := rfl

example : ∃ r, get (crun exC exEvs).db "t" = some r ∧ TellsResult r exR := by
  have h := result_recorded_partial exC "t" .task .task exQ exR (exEvs.take 2) ((exEvs.drop 3).take 4) (exEvs.drop 8) (by decide) (by decide) (by decide)
  rw [← ex_split2] at h
  exact h (by unfold NoPurge; decide +kernel) (by decide +kernel)

/-- the hypotheses of `destination_recorded` and `result_engine_recorded` are met -/
example : (∃ e ∈ exEvs.take 3, e.isRequest "t" = true) ∧ (∀ e ∈ (exEvs.drop 4).take 3, e.places "t" = false) ∧ (∀ e ∈ exEvs.drop 8, e.places "t" = false) ∧
    "t" ∉ (crun exC exEvs).db.culled ∧ "t" ∉ (crun exC (exEvs.take 7)).db.culled := by decide +kernel

/-- **Violated: the first result stays.** A second reply through a direct queue (`save_queue_result` accepts results of completed tasks: hub.py:529-534) replaces the recorded result. -/
theorem second_result_replaces_violated :
    let evs : List CEv := [.request (.mux "e") "t" exQ, .result (.mux "e") "t" exR, .result (.mux "e") "t" { exR with content := 99 }]
    (get (crun exC evs).db "t").map (fun r => r.get "result_content") = some (.obj 99) := by decide +kernel

end IPP.Capture
