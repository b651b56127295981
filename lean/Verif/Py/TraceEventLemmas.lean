import Verif.Py.TraceEventSpec
/-! Lemmas about the conversion of traces: the converter's view of a record agrees with the specification. -/
namespace Verif.TraceEv
open Verif Verif.Cali Verif.Py Verif.TraceEv.Spec

theorem rget_val (r : Dict) (k : List Byte) : rget r k = val r k := by
  unfold rget val
  induction r with
  | nil => rfl
  | cons p l ih =>
    obtain ⟨a, b⟩ := p
    by_cases h : a = .text k
    · simp [lookup, h]
    · simp [lookup, h, ih, Ne.symm h]

theorem has_val (r : Dict) (k : List Byte) : has r k = (val r k).isSome := by
  unfold has val
  induction r with
  | nil => rfl
  | cons p l ih =>
    by_cases h : p.1 = .text k
    · simp [h]
    · simp only [List.any_cons, List.find?_cons, h, decide_false, Bool.false_or]; exact ih

theorem val_none {r : Dict} {k : List Byte} (h : has r k = false) : val r k = none := by
  rw [has_val] at h
  cases hv : val r k with
  | none => rfl
  | some v => rw [hv] at h; cases h

theorem val_some {r : Dict} {k : List Byte} (h : has r k = true) : ∃ v, val r k = some v := by
  rw [has_val] at h
  exact Option.isSome_iff_exists.1 h

theorem toFloat_text {T : Type} (O : TimeOps T) (r : Dict) (k : List Byte) : (rget r k).bind (toFloat O) = (text r k).bind O.float := by
  rw [rget_val]
  unfold text
  rcases h : val r k with - | ⟨⟨s⟩ | ⟨_, _⟩⟩ | ds <;> rfl

theorem toInt_text (r : Dict) (k : List Byte) : (rget r k).bind toInt = (text r k).bind pyInt := by
  rw [rget_val]
  unfold text
  rcases h : val r k with - | ⟨⟨s⟩ | ⟨_, _⟩⟩ | ds <;> rfl

theorem firstInt_place (r : Dict) (ids : List (List Byte)) : firstInt r ids = place ids r := by
  induction ids with
  | nil => rfl
  | cons a l ih =>
    unfold place firstInt
    rw [List.find?_cons]
    cases h : has r a with
    | false => rw [rget_val, val_none h]; exact ih
    | true =>
      obtain ⟨v, hv⟩ := val_some h
      have := toInt_text r a
      rw [rget_val, hv] at this ⊢
      exact this

/-- a chain over the table -/
theorem timestamp_find {T : Type} (O : TimeOps T) (r : Dict) (tab : List (List Byte × Bool)) :
    timestamp O r tab = match tab.find? (fun p => has r p.1) with
      | none => some none
      | some (k, m) => ((text r k).bind O.float).map fun t => some (if m then O.milli t else t) := by
  induction tab with
  | nil => rfl
  | cons p l ih =>
    obtain ⟨a, m⟩ := p
    rw [List.find?_cons]
    unfold timestamp
    cases h : has r a with
    | false => rw [rget_val, val_none h]; exact ih
    | true =>
      obtain ⟨v, hv⟩ := val_some h
      have := toFloat_text O r a
      rw [rget_val, hv] at this ⊢
      simp only [Option.bind_some] at this
      simp only [this]

theorem timestamp_spec {T : Type} (O : TimeOps T) (r : Dict) :
    timestamp O r tsTable = match clock r with
      | none => some none
      | some _ => (Spec.time O r).map some := by
  rw [timestamp_find]
  unfold Spec.time clock clocks tsTable micros
  simp only [List.find?_cons, List.find?_nil]
  cases has r (str "cupti.timestamp")
  · cases has r (str "rocm.host.timestamp")
    · cases has r (str "time.offset.ns")
      · cases has r (str "time.offset")
        · cases has r (str "gputrace.timestamp")
          · cases has r (str "cupti.activity.start")
            · cases has r (str "rocm.starttime")
              · rfl
              · simp only [Option.bind_some]; rw [if_neg (by decide +kernel)]; simp [Function.comp_def]
            · simp only [Option.bind_some]; rw [if_neg (by decide +kernel)]; simp [Function.comp_def]
          · simp only [Option.bind_some]; rw [if_neg (by decide +kernel)]; simp [Function.comp_def]
        · simp
      · simp only [Option.bind_some]; rw [if_neg (by decide +kernel)]; simp [Function.comp_def]
    · simp only [Option.bind_some]; rw [if_neg (by decide +kernel)]; simp [Function.comp_def]
  · simp only [Option.bind_some]; rw [if_neg (by decide +kernel)]; simp [Function.comp_def]

theorem recTime_time {T : Type} (O : TimeOps T) (r : Dict) : recTime O r = Spec.time O r := by
  unfold recTime
  rw [timestamp_spec]
  cases h : clock r with
  | none => simp [Spec.time, h]
  | some k => cases Spec.time O r <;> rfl

theorem isPrefixOf_take (p k : List Byte) : p.isPrefixOf k = decide (k.take p.length = p) := by
  rw [Bool.eq_iff_iff, List.isPrefixOf_iff_prefix, decide_eq_true_iff, List.prefix_iff_eq_take]
  exact eq_comm

theorem eventKey_spec (r : Dict) :
    eventKey r = (r.findSome? fun p => (eventName p.1).map fun e => (e, p.2)).map fun e => (e.1.1, e.1.2, e.2) := by
  induction r with
  | nil => rfl
  | cons p l ih =>
    obtain ⟨a, v⟩ := p
    rw [List.findSome?_cons]
    cases a with
    | pair _ _ => exact ih
    | text k =>
      have e0 : eventName (.text k) = if k.take 12 = str "event.begin#" then some (true, k.drop 12)
        else if k.take 10 = str "event.end#" then some (false, k.drop 10) else none := rfl
      unfold eventKey
      simp only [e0]
      have e1 := isPrefixOf_take (str "event.begin#") k
      have e2 := isPrefixOf_take (str "event.end#") k
      have l1 : (str "event.begin#").length = 12 := by decide +kernel
      have l2 : (str "event.end#").length = 10 := by decide +kernel
      rw [l1] at e1
      rw [l2] at e2
      rw [e1, e2]
      by_cases h1 : k.take 12 = str "event.begin#"
      · simp [h1]
      · by_cases h2 : k.take 10 = str "event.end#"
        · simp [h1, h2]
        · simp [h1, h2, ih]

end Verif.TraceEv
