import Verif.Props.TimerDemo
/-!
# Accepted jobs are not lost (C125)
-/
set_option linter.unusedVariables false
namespace Ddd.Timer

/-- an accepted job has no expression or one that can be parsed -/
theorem created_parses {c : Cfg} {s : State} (h : Reachable c s) {j : Job} (hj : .created j ∈ s.log) : j.cron = 0 ∨ ∃ f, c.parse j.cron = some f := by
  obtain ⟨svc, r, t, j0, _, _, hjob, he⟩ := (orig_reachable h).created j hj
  have e : j.cron = j0.cron := by rw [he]; rfl
  rw [e]
  rcases job_of_req hjob with ⟨_, _, _, _, h0, _⟩ | ⟨_, h0, _⟩ | ⟨f, _, _, hf, _⟩
  · exact .inl h0
  · exact .inl h0
  · exact .inr ⟨f, hf⟩

theorem created_toRun {c : Cfg} {s : State} (h : Reachable c s) {j : Job} (hj : .created j ∈ s.log) : j.status = .toRun := by
  obtain ⟨svc, r, t, j0, _, _, hjob, he⟩ := (orig_reachable h).created j hj
  have e : j.status = j0.status := by rw [he]; rfl
  rw [e]
  rcases job_of_req hjob with ⟨_, _, _, _, _, _, h0⟩ | ⟨_, _, _, _, h0⟩ | ⟨f, _, _, _, _, _, h0⟩ <;> exact h0

theorem still_keep {a b : State} {j : Job} (h : StillPending a j) (hk : ∀ x ∈ a.db.jobs, x.id = j.id → x ∈ b.db.jobs) : StillPending b j := by
  obtain ⟨x, hx, hid, hr⟩ := h
  exact ⟨x, hk x hx hid, hid, hr⟩

/-- C125: in every history, with any instances, clocks, crashes and failures, a job that was stored is pending in the table with the arguments it was registered with, unless it was cancelled or it is a one-shot job whose call was completed: nothing else ever takes a job out of
the table or keeps it from being called. -/
theorem C125_kept {c : Cfg} {s : State} (h : Reachable c s) {j : Job} (hj : .created j ∈ s.log) :
    StillPending s j ∨ (∃ y ∈ s.log, y.isDeleted j.id = true) ∨ (j.cron = 0 ∧ ∃ y ∈ s.log, y.isSaved j.id = true) := by
  induction h generalizing j with
  | init => simp [State.init] at hj
  | @step a b hr hst ih =>
    have hi := inv_reachable hr
    have quiet : (∀ y ∈ a.log, y ∈ b.log) → (∀ x ∈ a.db.jobs, x.id = j.id → x ∈ b.db.jobs) → .created j ∈ a.log →
        StillPending b j ∨ (∃ y ∈ b.log, y.isDeleted j.id = true) ∨ (j.cron = 0 ∧ ∃ y ∈ b.log, y.isSaved j.id = true) := by
      intro hl hk hja
      rcases ih hja with h1 | ⟨y, hy, h1⟩ | ⟨h0, y, hy, h1⟩
      · exact .inl (still_keep h1 hk)
      · exact .inr (.inl ⟨y, hl y hy, h1⟩)
      · exact .inr (.inr ⟨h0, y, hl y hy, h1⟩)
    have hcr : Reachable c b := .step hr hst
    cases hst with
    | tick => exact quiet (fun _ h => h) (fun _ h _ => h) hj
    | regDrop => exact quiet (fun _ h => h) (fun _ h _ => h) hj
    | select => exact quiet (fun _ h => h) (fun _ h _ => h) hj
    | skip => exact quiet (fun _ h => h) (fun _ h _ => h) hj
    | loopDrop => exact quiet (fun _ h => h) (fun _ h _ => h) hj
    | regFind => exact quiet (fun _ h => List.mem_cons_of_mem _ h) (fun _ h _ => h) (by simpa using hj)
    | call => exact quiet (fun _ h => List.mem_cons_of_mem _ h) (fun _ h _ => h) (by simpa using hj)
    | crash => exact quiet (fun _ h => List.mem_cons_of_mem _ h) (fun _ h _ => h) (by simpa using hj)
    | finishLost => exact quiet (fun _ h => List.mem_cons_of_mem _ h) (fun _ h _ => h) (by simpa using hj)
    | regInsert j0 db' hj0 hins =>
      obtain ⟨rfl, _⟩ := insert_ok hins
      rcases List.mem_cons.mp hj with he | hja
      · have hs := created_toRun hcr hj
        simp only [Log.created.injEq] at he
        refine .inl ⟨j, ?_, rfl, hs, rfl, rfl, rfl, rfl, fun _ => rfl⟩
        rw [he]; simp
      · exact quiet (fun _ h => List.mem_cons_of_mem _ h) (fun _ h _ => List.mem_append_left _ h) hja
    | cancel key db' hc hk =>
      obtain ⟨_, rfl⟩ := cancel_ok hc
      have hja : .created j ∈ a.log := by simpa using hj
      rcases ih hja with ⟨x, hx, hid, hr'⟩ | ⟨y, hy, h1⟩ | ⟨h0, y, hy, h1⟩
      · by_cases hkey : x.key = key
        · refine .inr (.inl ⟨.deleted x, List.mem_append_left _ (List.mem_map_of_mem (List.mem_filter.mpr ⟨hx, by simpa using hkey⟩)), ?_⟩)
          simp [Log.isDeleted, hid]
        · exact .inl ⟨x, List.mem_filter.mpr ⟨hx, by simpa using hkey⟩, hid, hr'⟩
      · exact .inr (.inl ⟨y, List.mem_append_right _ hy, h1⟩)
      · exact .inr (.inr ⟨h0, y, List.mem_append_right _ hy, h1⟩)
    | finish r hm t0 ht =>
      have hja : .created j ∈ a.log := by simpa using hj
      rcases ih hja with ⟨x, hx, hid, hs, hk1, hk2, hk3, hk4, hk5⟩ | ⟨y, hy, h1⟩ | ⟨h0, y, hy, h1⟩
      · have hmem := hi.busyMem r hm
        by_cases hrid : r.j.id = j.id
        · have hxr : x = r.j := List.inj_on_of_nodup_map hi.nodup hx hmem (by rw [hid, hrid])
          subst hxr
          by_cases h0 : j.cron = 0
          · exact .inr (.inr ⟨h0, .returned r.svc r.j t0 true, List.mem_cons_self, by simp [Log.isSaved, hrid]⟩)
          · rcases created_parses hr hja with hz | ⟨f, hf⟩
            · exact absurd hz h0
            · refine .inl ⟨(r.j.afterCall c t0).stored c, ?_, ?_⟩
              · simp only [save, List.mem_map]
                exact ⟨r.j, hmem, by rw [afterCall_id, if_pos rfl]⟩
              · rw [afterCall_cron c t0 r.j (by rw [hk3]; exact h0) f (by rw [hk3]; exact hf)]
                exact ⟨hid, rfl, hk1, hk2, hk3, hk4, fun hz => absurd hz h0⟩
        · refine .inl ⟨x, ?_, hid, hs, hk1, hk2, hk3, hk4, hk5⟩
          simp only [save, List.mem_map]
          exact ⟨x, hx, by rw [afterCall_id, if_neg (by rw [hid]; exact Ne.symm hrid)]⟩
      · exact .inr (.inl ⟨y, List.mem_cons_of_mem _ hy, h1⟩)
      · exact .inr (.inr ⟨h0, y, List.mem_cons_of_mem _ hy, h1⟩)

/-- C125: such a one-shot job, once its time (as stored) has come by the clock of a poll, is called by every undisturbed poll of its service; and it is called with the key and the data of the registration. -/
theorem C125_once_called {c : Cfg} {s : State} (h : Reachable c s) {j : Job} (hj : .created j ∈ s.log) (h0 : j.cron = 0) (hd : ∀ y ∈ s.log, y.isDeleted j.id = false) (hs : ∀ y ∈ s.log, y.isSaved j.id = false)
    {now : Nat} (hn : j.next ≤ now) : ∃ x ∈ (handleJobs c j.service now s.db).2, x.id = j.id ∧ x.key = j.key ∧ x.data = j.data := by
  rcases C125_kept h hj with ⟨x, hx, hid, hst, hk1, hk2, hk3, hk4, hk5⟩ | ⟨y, hy, h1⟩ | ⟨_, y, hy, h1⟩
  · refine ⟨x, ?_, hid, hk1, hk4⟩
    rw [(C64_poll c j.service now s.db (inv_reachable h).nodup).1, List.mem_filter]
    refine ⟨hx, ?_⟩
    simp only [decide_eq_true_eq]
    exact ⟨hk2, by rw [hk5 h0]; exact hn, hst⟩
  · rw [hd y hy] at h1; cases h1
  · rw [hs y hy] at h1; cases h1

/-- C125: a cron job that was not cancelled is called at its next time by every undisturbed poll of its service, for ever; if it was called before, its next time is the one after the return of the last completed call (`C54_next`). -/
theorem C125_cron_called {c : Cfg} {s : State} (h : Reachable c s) {j : Job} (hj : .created j ∈ s.log) (h0 : j.cron ≠ 0) (hd : ∀ y ∈ s.log, y.isDeleted j.id = false) :
    ∃ x ∈ s.db.jobs, x.id = j.id ∧ ∀ now, x.next ≤ now → x ∈ (handleJobs c j.service now s.db).2 ∧ x.key = j.key ∧ x.data = j.data := by
  rcases C125_kept h hj with ⟨x, hx, hid, hst, hk1, hk2, hk3, hk4, hk5⟩ | ⟨y, hy, h1⟩ | ⟨hz, _⟩
  · refine ⟨x, hx, hid, fun now hn => ⟨?_, hk1, hk4⟩⟩
    rw [(C64_poll c j.service now s.db (inv_reachable h).nodup).1, List.mem_filter]
    refine ⟨hx, ?_⟩
    simp only [decide_eq_true_eq]
    exact ⟨hk2, hn, hst⟩
  · rw [hd y hy] at h1; cases h1
  · exact absurd hz h0

/-- C125, the other half: a one-shot job whose call was completed, as long as nobody cancels it, keeps its row, finished, for ever. -/
theorem C125_spent {c : Cfg} {s : State} (h : Reachable c s) {j : Job} (hj : .created j ∈ s.log) (h0 : j.cron = 0) (hd : ∀ y ∈ s.log, y.isDeleted j.id = false) (hs : ∃ y ∈ s.log, y.isSaved j.id = true) :
    ∃ x ∈ s.db.jobs, x.id = j.id ∧ x.key = j.key ∧ x.service = j.service ∧ x.status = .finished := by
  obtain ⟨y, hy, hsv⟩ := hs
  have key : ∀ {a : State}, Reachable c a → .created j ∈ a.log → (∀ y ∈ a.log, y.isDeleted j.id = false) → ∃ x ∈ a.db.jobs, x.id = j.id := by
    intro a ha
    induction ha with
    | init => intro hja; simp [State.init] at hja
    | @step a b hr hst ih =>
      intro hja hda
      cases hst with
      | regInsert j1 db' hj1 hins =>
        obtain ⟨rfl, _⟩ := insert_ok hins
        rcases List.mem_cons.mp hja with he | hja
        · simp only [Log.created.injEq] at he
          exact ⟨_, by rw [List.mem_append]; exact .inr List.mem_cons_self, by rw [he]⟩
        · obtain ⟨x, hx, he⟩ := ih hja (fun y hy => hda y (List.mem_cons_of_mem _ hy))
          exact ⟨x, List.mem_append_left _ hx, he⟩
      | cancel k db' hc hk =>
        obtain ⟨_, rfl⟩ := cancel_ok hc
        obtain ⟨x, hx, he⟩ := ih (by simpa using hja) (fun y hy => hda y (List.mem_append_right _ hy))
        refine ⟨x, List.mem_filter.mpr ⟨hx, ?_⟩, he⟩
        simp only [decide_eq_true_eq]
        intro hkey
        have := hda (.deleted x) (List.mem_append_left _ (List.mem_map_of_mem (List.mem_filter.mpr ⟨hx, by simpa using hkey⟩)))
        simp [Log.isDeleted, he] at this
      | finish r hm t0 ht =>
        obtain ⟨x, hx, he⟩ := ih (by simpa using hja) (fun y hy => hda y (List.mem_cons_of_mem _ hy))
        have : j.id ∈ (save a.db ((r.j.afterCall c t0).stored c)).jobs.map Job.id := by
          rw [save_ids, ← he]; exact List.mem_map_of_mem hx
        obtain ⟨z, hz, hze⟩ := List.mem_map.mp this
        exact ⟨z, hz, hze⟩
      | regFind => exact ih (by simpa using hja) (fun y hy => hda y (List.mem_cons_of_mem _ hy))
      | call => exact ih (by simpa using hja) (fun y hy => hda y (List.mem_cons_of_mem _ hy))
      | crash => exact ih (by simpa using hja) (fun y hy => hda y (List.mem_cons_of_mem _ hy))
      | finishLost => exact ih (by simpa using hja) (fun y hy => hda y (List.mem_cons_of_mem _ hy))
      | _ => exact ih hja hda
  obtain ⟨x, hx, he⟩ := key h hj hd
  obtain ⟨hk, hsv', hc, _⟩ := C55_stable h j x hj hx he
  refine ⟨x, hx, he, hk, hsv', ?_⟩
  cases y with
  | returned svc r t b =>
    cases b with
    | false => simp [Log.isSaved] at hsv
    | true =>
      simp only [Log.isSaved, beq_iff_eq] at hsv
      obtain ⟨⟨_, _, hcr, _⟩, hrel⟩ := (past_reachable h).rel _ hy x hx (by simp [Log.id, hsv, he])
      exact (hrel rfl).1 (by rw [← hcr, hc]; exact h0)
  | _ => simp [Log.isSaved] at hsv

/-- C125: a key is used up by a one-shot job whose call was completed: in no history is the callback called for a job with this key, by any service, unless the key was cancelled in between. -/
theorem C125_used_up {c : Cfg} {s : State} (h : Reachable c s) {l1 l2 : List Log} {svc : Nat} {x : Job} {t : Nat} (hl : s.log = l1 ++ .called svc x t :: l2)
    {j : Job} (hj : .created j ∈ l2) (h0 : j.cron = 0) (hd : ∀ y ∈ l2, y.isDeleted j.id = false) (hs : ∃ y ∈ l2, y.isSaved j.id = true) : x.key ≠ j.key := by
  obtain ⟨a, ha, h1, h2, h3, _⟩ := call_split h hl
  obtain ⟨z, hz, _, hzk, _, hzf⟩ := C125_spent ha (by rw [h1]; exact hj) h0 (by rw [h1]; exact hd) (by rw [h1]; exact hs)
  intro hk
  have : x = z := List.inj_on_of_nodup_map (inv_reachable ha).keys h2 hz (by rw [hk, hzk])
  subst this
  rw [(due_iff.mp h3).2.2] at hzf
  cases hzf

/-- C125 is false for the second registration of a key: whatever one-shot job was called before, a later `RunOnce` or `RunCron` of the same service with its key is answered with success and nothing is stored (and by `C125_used_up` the callback is not called for this key unless it is cancelled first). -/
theorem C125_reused_key_ignored {c : Cfg} {s : State} (h : Reachable c s) {j : Job} (hj : .created j ∈ s.log) (h0 : j.cron = 0) (hd : ∀ y ∈ s.log, y.isDeleted j.id = false) (hs : ∃ y ∈ s.log, y.isSaved j.id = true)
    {now : Nat} {r : Req} (hk : r.key = j.key) (hr : ¬ Refused c now r) : register c s.db j.service now r = (s.db, .ok) := by
  obtain ⟨x, hx, he, hxk, hxs, hxf⟩ := C125_spent h hj h0 hd hs
  exact C55_existing_partial c s.db j.service now r x hx hxs (by rw [hxk, hk]) hr

/-- Hypotheses are met: in `story` a cron job and a one-shot job were created; the latter was called, and registering its key again does nothing. -/
example : (∃ x ∈ story.db.jobs, x.id = 1 ∧ x.next = 40) ∧ .created ⟨1, 1, 5, 1, 10, .toRun, 100⟩ ∈ story.log ∧ .created ⟨2, 1, 6, 0, 4, .toRun, 200⟩ ∈ story.log ∧ (∃ y ∈ story.log, y.isSaved 2 = true) ∧ (∀ y ∈ story.log, y.isDeleted 2 = false) ∧
    ¬ Refused tidy 35 (.once 6 50 9) := by
  rw [story_rows, story_log]
  exact ⟨by decide +kernel, by decide +kernel, by decide +kernel, by decide +kernel, by decide +kernel, by simp [Refused]⟩

/-- and a state in which the one-shot job is to be called -/
def waiting : State := after tidy [.reg 1 (.cron 5 1 100), .ins, .reg 1 (.once 6 4 200), .ins, .tick 12, .select 1, .call, .crash]

example : Reachable tidy waiting ∧ .created ⟨2, 1, 6, 0, 4, .toRun, 200⟩ ∈ waiting.log ∧ (∀ y ∈ waiting.log, y.isDeleted 2 = false) ∧ (∀ y ∈ waiting.log, y.isSaved 2 = false) ∧ (handleJobs tidy 1 12 waiting.db).2.map Job.key = [5, 6] :=
  ⟨after_reach _ _, by decide +kernel, by decide +kernel, by decide +kernel, by decide +kernel⟩

end Ddd.Timer
