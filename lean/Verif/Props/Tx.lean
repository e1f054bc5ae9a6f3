import Verif.Spec.Tx
import Mathlib.Tactic
/-!
# C70–C72: transactions of the MySQL executor
-/
set_option linter.unusedVariables false
set_option linter.unusedSimpArgs false
namespace Ddd.Tx
variable {W : Type}

theorem runs_append (s : Sys W) (a b : List (Op W)) :
    runs s (a ++ b) = ((runs (runs s a).1 b).1, (runs s a).2 ++ (runs (runs s a).1 b).2) := by
  induction a generalizing s with
  | nil => simp [runs]
  | cons o a ih => simp [runs, ih]

/-- same databases, same transactions except `t`. -/
structure Sim (t : Nat) (s s' : Sys W) : Prop where
  log : s.log = s'.log
  len : s.txs.length = s'.txs.length
  other : ∀ u, u ≠ t → s.txs[u]? = s'.txs[u]?

def Over (t : Nat) (s : Sys W) : Prop := ∀ r, s.txs[t]? = some r → r.status ≠ .opened

theorem Sim.refl (t : Nat) (s : Sys W) : Sim t s s := ⟨rfl, rfl, fun _ _ => rfl⟩

theorem endTx_sim {t u : Nat} (hu : u ≠ t) {s s' : Sys W} (h : Sim t s s') (b : Bool) (st : Status) (out : Out W) :
    (endTx s u b st out).2 = (endTx s' u b st out).2 ∧ Sim t (endTx s u b st out).1 (endTx s' u b st out).1 := by
  unfold endTx
  rw [← h.other u hu]
  rcases hx : s.txs[u]? with _ | r
  · exact ⟨rfl, h⟩
  · simp only
    split
    · refine ⟨rfl, ?_, ?_, ?_⟩
      · cases b <;> simp [Sys.setTx, Sys.append, h.log]
      · cases b <;> simp [Sys.setTx, Sys.append, h.len]
      · intro v hv
        have := h.other v hv
        cases b <;> simp [Sys.setTx, Sys.append, List.getElem?_set, h.len, this]
    · exact ⟨rfl, h⟩

theorem endTx_mine {t : Nat} {s s' : Sys W} (h : Sim t s s') {b : Bool} (hb : b = false ∨ Over t s) (st : Status) (out : Out W) :
    Sim t (endTx s t b st out).1 s' := by
  unfold endTx
  rcases hx : s.txs[t]? with _ | r
  · exact h
  · simp only
    split
    · next ho =>
      rcases hb with rfl | hb
      · refine ⟨by simp [Sys.setTx, h.log], by simp [Sys.setTx, h.len], fun v hv => ?_⟩
        have := h.other v hv
        simp [Sys.setTx, List.getElem?_set, Ne.symm hv, this]
      · exact absurd ho (hb r hx)
    · exact h

theorem step_other {t : Nat} {o : Op W} (ho : inTx t o = false) {s s' : Sys W} (h : Sim t s s') :
    (step s o).2 = (step s' o).2 ∧ Sim t (step s o).1 (step s' o).1 := by
  cases o with
  | begin e c f =>
    simp only [step]
    split
    · exact ⟨rfl, h⟩
    · split
      · exact ⟨rfl, h⟩
      · refine ⟨by simp [h.len], h.log, by simp [h.len], fun u hu => ?_⟩
        have := h.other u hu
        simp only [List.getElem?_append, h.len, this]
  | exec e c ws d =>
    simp only [inTx, beq_eq_false_iff_ne, ne_eq] at ho
    simp only [step]
    rcases hc : c.value e.key with _ | u
    · simp only
      split
      · exact ⟨rfl, h⟩
      · exact ⟨rfl, by simp [Sys.append, h.log], h.len, h.other⟩
    · have hu : u ≠ t := by rintro rfl; exact ho hc
      simp only
      rw [← h.other u hu]
      rcases hx : s.txs[u]? with _ | r
      · exact ⟨rfl, h⟩
      · simp only
        split
        · refine ⟨rfl, h.log, by simp [Sys.setTx, h.len], fun v hv => ?_⟩
          have := h.other v hv
          simp [Sys.setTx, List.getElem?_set, h.len, this]
        · exact ⟨rfl, h⟩
  | query e c n =>
    simp only [inTx, beq_eq_false_iff_ne, ne_eq] at ho
    simp only [step]
    rcases hc : c.value e.key with _ | u
    · simp only
      split
      · exact ⟨rfl, h⟩
      · exact ⟨by simp [h.log], h⟩
    · have hu : u ≠ t := by rintro rfl; exact ho hc
      simp only
      rw [← h.other u hu, h.log]
      rcases hx : s.txs[u]? with _ | r
      · exact ⟨rfl, h⟩
      · simp only
        split <;> exact ⟨rfl, h⟩
  | commit e c f =>
    simp only [inTx, beq_eq_false_iff_ne, ne_eq] at ho
    simp only [step]
    rcases e.db with _ | d
    · exact ⟨rfl, h⟩
    · rcases hc : c.value e.key with _ | u
      · exact ⟨rfl, h⟩
      · have hu : u ≠ t := by rintro rfl; exact ho hc
        rcases f with _ | b
        · exact endTx_sim hu h true .committed .ok
        · exact endTx_sim hu h b .committed .dbErr
  | rollback e c f =>
    simp only [inTx, beq_eq_false_iff_ne, ne_eq] at ho
    simp only [step]
    rcases e.db with _ | d
    · exact ⟨rfl, h⟩
    · rcases hc : c.value e.key with _ | u
      · exact ⟨rfl, h⟩
      · have hu : u ≠ t := by rintro rfl; exact ho hc
        exact endTx_sim hu h false .rolledBack _

theorem step_mine {t : Nat} {o : Op W} (ho : inTx t o = true) {s s' : Sys W} (h : Sim t s s') (hc : commits t o = false ∨ Over t s) :
    Sim t (step s o).1 s' := by
  cases o with
  | begin e c f => simp [inTx] at ho
  | exec e c ws d =>
    simp only [inTx, beq_iff_eq] at ho
    simp only [step, ho]
    rcases hx : s.txs[t]? with _ | r
    · exact h
    · simp only
      split
      · refine ⟨h.log, by simp [Sys.setTx, h.len], fun v hv => ?_⟩
        have := h.other v hv
        simp [Sys.setTx, List.getElem?_set, Ne.symm hv, this]
      · exact h
  | query e c n =>
    simp only [inTx, beq_iff_eq] at ho
    simp only [step, ho]
    rcases hx : s.txs[t]? with _ | r
    · exact h
    · simp only
      split <;> exact h
  | commit e c f =>
    simp only [inTx, beq_iff_eq] at ho
    simp only [commits, ho] at hc
    simp only [step, ho]
    rcases he : e.db with _ | d
    · exact h
    · rcases f with _ | b
      · refine endTx_mine h ?_ _ _
        rcases hc with hc | hc
        · simp [he] at hc
        · exact .inr hc
      · refine endTx_mine h ?_ _ _
        rcases hc with hc | hc
        · simp [he] at hc; exact .inl hc
        · exact .inr hc
  | rollback e c f =>
    simp only [inTx, beq_iff_eq] at ho
    simp only [step, ho]
    rcases e.db with _ | d
    · exact h
    · exact endTx_mine h (.inl rfl) _ _

theorem endTx_len (s : Sys W) (u : Nat) (b : Bool) (st : Status) (out : Out W) : (endTx s u b st out).1.txs.length = s.txs.length := by
  unfold endTx
  split
  · split
    · cases b <;> simp [Sys.setTx, Sys.append]
    · rfl
  · rfl

theorem endTx_get (s : Sys W) (u v : Nat) (b : Bool) (st : Status) (out : Out W) :
    (endTx s u b st out).1.txs[v]? = if u = v then (s.txs[v]?).map fun r => if r.status = .opened then { r with status := st } else r else s.txs[v]? := by
  unfold endTx
  by_cases huv : u = v
  · subst huv
    rcases hx : s.txs[u]? with _ | r
    · simp [hx]
    · simp only
      have hl : u < s.txs.length := (List.getElem?_eq_some_iff.1 hx).1
      by_cases ho : r.status = .opened
      · cases b <;> simp [Sys.setTx, Sys.append, ho, hx, List.getElem?_set, hl]
      · simp [ho, hx]
  · simp only [huv, if_false]
    rcases hx : s.txs[u]? with _ | r
    · rfl
    · simp only
      split
      · cases b <;> simp [Sys.setTx, Sys.append, List.getElem?_set, huv]
      · rfl

theorem step_len (s : Sys W) (o : Op W) : s.txs.length ≤ (step s o).1.txs.length := by
  cases o <;> simp only [step] <;> (repeat' split) <;> simp [endTx_len, Sys.setTx, Sys.append]

/-- what a step does to the record of an existing transaction. -/
theorem over_step {t : Nat} {s : Sys W} (ht : t < s.txs.length) (h : Over t s) (o : Op W) : Over t (step s o).1 := by
  intro r hr
  have key : ∀ u b st (out : Out W), st ≠ .opened → (endTx s u b st out).1.txs[t]? = some r → r.status ≠ .opened := by
    intro u b st out hst hr
    rw [endTx_get] at hr
    split at hr
    · rcases hx : s.txs[t]? with _ | r'
      · simp [hx] at hr
      · simp [hx] at hr
        have := h r' hx
        simp [this] at hr
        rw [← hr]; exact this
    · exact h r hr
  cases o with
  | begin e c f =>
    simp only [step] at hr
    split at hr
    · exact h r hr
    · split at hr
      · exact h r hr
      · rw [List.getElem?_append_left ht] at hr; exact h r hr
  | exec e c ws d =>
    simp only [step] at hr
    rcases hc : c.value e.key with _ | u
    · simp only [hc] at hr
      split at hr <;> exact h r hr
    · simp only [hc] at hr
      rcases hx : s.txs[u]? with _ | r'
      · simp only [hx] at hr; exact h r hr
      · simp only [hx] at hr
        split at hr
        · next ho =>
          by_cases hut : u = t
          · subst hut; exact absurd ho (h r' hx)
          · simp [Sys.setTx, List.getElem?_set, hut] at hr; exact h r hr
        · exact h r hr
  | query e c n =>
    simp only [step] at hr
    (repeat' split at hr) <;> exact h r hr
  | commit e c f =>
    simp only [step] at hr
    split at hr
    · exact h r hr
    · exact h r hr
    · split at hr
      · exact key _ _ _ _ (by decide) hr
      · exact key _ _ _ _ (by decide) hr
  | rollback e c f =>
    simp only [step] at hr
    split at hr
    · exact h r hr
    · exact h r hr
    · exact key _ _ _ _ (by decide) hr

theorem ends_over {t : Nat} {s : Sys W} {o : Op W} (ho : ends t o = true) : Over t (step s o).1 := by
  intro r hr
  have key : ∀ b st (out : Out W), st ≠ .opened → (endTx s t b st out).1.txs[t]? = some r → r.status ≠ .opened := by
    intro b st out hst hr
    rw [endTx_get, if_pos rfl] at hr
    rcases hx : s.txs[t]? with _ | r'
    · simp [hx] at hr
    · simp [hx] at hr
      by_cases h' : r'.status = .opened
      · simp [h'] at hr; rw [← hr]; exact hst
      · simp [h'] at hr; rw [← hr]; exact h'
  cases o with
  | commit e c f =>
    simp only [ends, Bool.and_eq_true, beq_iff_eq] at ho
    obtain ⟨d, hd⟩ := Option.isSome_iff_exists.1 ho.1
    simp only [step, hd, ho.2] at hr
    rcases f with _ | b
    · exact key _ _ _ (by decide) hr
    · exact key _ _ _ (by decide) hr
  | rollback e c f =>
    simp only [ends, Bool.and_eq_true, beq_iff_eq] at ho
    obtain ⟨d, hd⟩ := Option.isSome_iff_exists.1 ho.1
    simp only [step, hd, ho.2] at hr
    exact key _ _ _ (by decide) hr
  | _ => simp [ends] at ho

theorem runs_len (s : Sys W) (ops : List (Op W)) : s.txs.length ≤ (runs s ops).1.txs.length := by
  induction ops generalizing s with
  | nil => exact le_refl _
  | cons o os ih => exact le_trans (step_len s o) (ih _)

/-- removing the calls of a transaction that is not committed. -/
theorem remove {t : Nat} {s s' : Sys W} (h : Sim t s s') (ht : t < s.txs.length) (ops : List (Op W)) (hn : Over t s ∨ NotCommitted t ops) :
    Sim t (runs s ops).1 (runs s' (ops.filter fun o => !inTx t o)).1 ∧
      seenByOthers t (runs s ops).2 = (runs s' (ops.filter fun o => !inTx t o)).2 := by
  induction ops generalizing s s' with
  | nil => exact ⟨h, rfl⟩
  | cons o os ih =>
    have hn' : Over t (step s o).1 ∨ NotCommitted t os := by
      rcases hn with hn | hn
      · exact .inl (over_step ht hn o)
      · by_cases he : ends t o = true
        · exact .inl (ends_over he)
        · right
          intro a o' b hab hc
          obtain ⟨o2, h2, h3⟩ := hn (o :: a) o' b (by rw [hab]; rfl) hc
          rcases List.mem_cons.1 h2 with rfl | h2
          · exact absurd h3 he
          · exact ⟨o2, h2, h3⟩
    have ht' : t < (step s o).1.txs.length := lt_of_lt_of_le ht (step_len s o)
    by_cases ho : inTx t o = true
    · have hc : commits t o = false ∨ Over t s := by
        rcases hn with hn | hn
        · exact .inr hn
        · left
          rw [Bool.eq_false_iff]
          intro hc
          obtain ⟨o', h1, _⟩ := hn [] o os rfl hc
          simp at h1
      have := ih (step_mine ho h hc) ht' hn'
      simp only [runs, List.filter_cons, ho, Bool.not_true, Bool.false_eq_true, if_false, seenByOthers]
      exact this
    · rw [Bool.not_eq_true] at ho
      obtain ⟨h1, h2⟩ := step_other ho h
      have := ih h2 ht' hn'
      simp only [runs, List.filter_cons, ho, Bool.not_false, if_true, seenByOthers]
      refine ⟨this.1, ?_⟩
      rw [h1]
      exact congrArg _ this.2

theorem begin_new {e : Exe} {ctx ctx' : Ctx} {t : Nat} {s : Sys W} (hb : (step s (.begin e ctx false)).2 = .ctx ((e.key, t) :: ctx')) :
    ∃ d, e.db = some d ∧ (step s (.begin e ctx false)).1.txs[t]? = some ⟨d, [], .opened⟩ ∧ t = s.txs.length ∧ ctx' = ctx := by
  simp only [step] at hb ⊢
  rcases he : e.db with _ | d
  · rw [he] at hb; simp at hb
  · rw [he] at hb
    simp at hb ⊢
    obtain ⟨rfl, rfl⟩ := hb
    simp

/-- **C70** (a transaction not committed never happened) Take any history of calls to any number of executors with any contexts, and a transaction `t` begun in it that is not
committed (rolled back, abandoned, process died, commit failed without becoming durable). Everybody else gets the same answers, and every database has the same content, as if the
calls made in `t` had never been made. -/
theorem C70_not_committed_never_happened (before after : List (Op W)) (e : Exe) (ctx : Ctx) {t : Nat} {ctx' : Ctx}
    (hb : (step (runs init before).1 (.begin e ctx false)).2 = .ctx ((e.key, t) :: ctx')) (hn : NotCommitted t after) :
    (runs init (before ++ .begin e ctx false :: after)).1.log = (runs init (before ++ .begin e ctx false :: after.filter fun o => !inTx t o)).1.log ∧
    seenByOthers t (runs init (before ++ .begin e ctx false :: after)).2 =
      seenByOthers t (runs init (before ++ .begin e ctx false :: after.filter fun o => !inTx t o)).2 := by
  set s := (runs init before).1 with hs
  obtain ⟨d, _, hnew, _, _⟩ := begin_new hb
  have ht : t < (step s (.begin e ctx false)).1.txs.length := (List.getElem?_eq_some_iff.1 hnew).1
  have := remove (Sim.refl t (step s (.begin e ctx false)).1) ht after (.inr hn)
  have hf : ∀ (s : Sys W) (ops : List (Op W)), seenByOthers t (runs s (ops.filter fun o => !inTx t o)).2 = (runs s (ops.filter fun o => !inTx t o)).2 := by
    intro s ops
    induction ops generalizing s with
    | nil => rfl
    | cons o os ih =>
      by_cases ho : inTx t o = true
      · simp [List.filter_cons, ho, ih]
      · simp only [List.filter_cons, ho, Bool.not_false, if_true, runs, seenByOthers]
        exact congrArg _ (ih _)
  rw [runs_append, runs_append, ← hs]
  simp only [runs]
  refine ⟨this.1.log, ?_⟩
  unfold seenByOthers at this hf ⊢
  rw [List.filter_append, List.filter_append, List.filter_cons, List.filter_cons, this.2, hf]

theorem inTx_filter_self (t : Nat) (s : Sys W) (ops : List (Op W)) :
    seenByOthers t (runs s (ops.filter fun o => !inTx t o)).2 = (runs s (ops.filter fun o => !inTx t o)).2 := by
  induction ops generalizing s with
  | nil => rfl
  | cons o os ih =>
    by_cases ho : inTx t o = true
    · simp [List.filter_cons, ho, ih]
    · simp only [List.filter_cons, ho, Bool.not_false, if_true, runs, seenByOthers]
      exact congrArg _ (ih _)

/-- while a transaction is not ended, it collects what is performed in it. -/
theorem collects {t d : Nat} {s : Sys W} {ws : List W} (h : s.txs[t]? = some ⟨d, ws, .opened⟩) {ops : List (Op W)} (hn : ∀ o ∈ ops, ends t o = false) :
    (runs s ops).1.txs[t]? = some ⟨d, ws ++ performed t ops, .opened⟩ := by
  induction ops generalizing s ws with
  | nil => simpa [runs, performed] using h
  | cons o os ih =>
    have hos : ∀ o ∈ os, ends t o = false := fun o ho => hn o (List.mem_cons_of_mem _ ho)
    have ho := hn o (by simp)
    have hl : t < s.txs.length := (List.getElem?_eq_some_iff.1 h).1
    rw [runs]
    suffices hs : (step s o).1.txs[t]? = some ⟨d, ws ++ performed t [o], .opened⟩ by
      rw [ih hs hos]
      simp [performed]
    have key : ∀ u b st (out : Out W), u ≠ t → (endTx s u b st out).1.txs[t]? = some ⟨d, ws, .opened⟩ := by
      intro u b st out hu
      rw [endTx_get, if_neg hu, h]
    cases o with
    | begin e c f =>
      simp only [step, performed, List.flatMap_cons, List.flatMap_nil, List.append_nil]
      rcases e.db with _ | d'
      · exact h
      · simp only
        split
        · exact h
        · rw [List.getElem?_append_left hl]; exact h
    | exec e c vs n =>
      simp only [step, performed, List.flatMap_cons, List.flatMap_nil, List.append_nil]
      rcases hc : c.value e.key with _ | u
      · simp only [hc]
        rcases e.db with _ | d'
        · simpa using h
        · simpa [Sys.append] using h
      · by_cases hu : u = t
        · subst hu
          simp only [hc, h, if_true, Sys.setTx, List.getElem?_set, hl]
        · have : (some u = some t) = False := by simp [hu]
          simp only [hc, this, if_false, List.append_nil]
          rcases hx : s.txs[u]? with _ | r
          · exact h
          · simp only
            split
            · simp [Sys.setTx, List.getElem?_set, hu, h]
            · exact h
    | query e c n =>
      simp only [step, performed, List.flatMap_cons, List.flatMap_nil, List.append_nil]
      rcases hc : c.value e.key with _ | u
      · simp only [hc]
        rcases e.db with _ | d' <;> exact h
      · simp only [hc]
        rcases hx : s.txs[u]? with _ | r
        · exact h
        · simp only; split <;> exact h
    | commit e c f =>
      simp only [step, performed, List.flatMap_cons, List.flatMap_nil, List.append_nil]
      rcases he : e.db with _ | d'
      · exact h
      · rcases hc : c.value e.key with _ | u
        · exact h
        · have hu : u ≠ t := by rintro rfl; simp [ends, he, hc] at ho
          rcases f with _ | b <;> exact key _ _ _ _ hu
    | rollback e c f =>
      simp only [step, performed, List.flatMap_cons, List.flatMap_nil, List.append_nil]
      rcases he : e.db with _ | d'
      · exact h
      · rcases hc : c.value e.key with _ | u
        · exact h
        · have hu : u ≠ t := by rintro rfl; simp [ends, he, hc] at ho
          exact key _ _ _ _ hu

/-- **C71** (a committed transaction happens at once) Take any history of calls to any number of executors with any contexts, and a transaction `t` of database `d` begun in it and committed successfully.
Everybody else gets the same answers, and every database has the same content, as if the calls made in `t` had not been made and all the statements performed in it had been executed at once, on `d`, at the
moment of the commit. -/
theorem C71_committed_at_once (before mid after : List (Op W)) (e : Exe) (ctx : Ctx) {t : Nat} {ctx' : Ctx}
    (hb : (step (runs init before).1 (.begin e ctx false)).2 = .ctx ((e.key, t) :: ctx')) (hn : ∀ o ∈ mid, ends t o = false)
    {ec : Exe} {cc : Ctx} (hd : ec.db.isSome) (hc : cc.value ec.key = some t) :
    ∃ v1 v2 : List (Op W × Out W), v1.map (·.1) = (before ++ .begin e ctx false :: mid).filter (fun o => !inTx t o) ∧
    let all := Op.exec e [] (performed t mid) (performed t mid).length
    seenByOthers t (runs init (before ++ .begin e ctx false :: (mid ++ .commit ec cc none :: after))).2 = v1 ++ v2 ∧
    seenByOthers t (runs init (before ++ .begin e ctx false :: (mid.filter (fun o => !inTx t o) ++ all :: after.filter fun o => !inTx t o))).2 = v1 ++ (all, .ok) :: v2 ∧
    (runs init (before ++ .begin e ctx false :: (mid ++ .commit ec cc none :: after))).1.log =
      (runs init (before ++ .begin e ctx false :: (mid.filter (fun o => !inTx t o) ++ all :: after.filter fun o => !inTx t o))).1.log := by
  obtain ⟨d, he, hnew, _, _⟩ := begin_new hb
  set s := (runs init before).1 with hs
  set s1 := (step s (.begin e ctx false)).1 with hs1
  have ht : t < s1.txs.length := (List.getElem?_eq_some_iff.1 hnew).1
  have hnc : NotCommitted t mid := by
    intro a o b hab hco
    exfalso
    have := hn o (by rw [hab]; simp)
    cases o <;> simp_all [commits, ends]
  obtain ⟨hm1, hm2⟩ := remove (Sim.refl t s1) ht mid (.inr hnc)
  have hcol := collects hnew hn
  rw [List.nil_append] at hcol
  set s2 := (runs s1 mid).1 with hs2
  set s2' := (runs s1 (mid.filter fun o => !inTx t o)).1 with hs2'
  obtain ⟨dc, hdc⟩ := Option.isSome_iff_exists.1 hd
  have hstep : step s2 (.commit ec cc none) = ((s2.append d (performed t mid)).setTx t ⟨d, performed t mid, .committed⟩, .ok) := by
    simp only [step, hdc, hc, endTx, hcol]
    simp
  have hstep' : step s2' (.exec e [] (performed t mid) (performed t mid).length) = (s2'.append d (performed t mid), .ok) := by
    simp [step, Ctx.value, he]
  have hl2 : t < s2.txs.length := (List.getElem?_eq_some_iff.1 hcol).1
  have hsim : Sim t ((s2.append d (performed t mid)).setTx t ⟨d, performed t mid, .committed⟩) (s2'.append d (performed t mid)) := by
    refine ⟨by simp [Sys.append, Sys.setTx, hm1.log], by simp [Sys.append, Sys.setTx, hm1.len], fun u hu => ?_⟩
    have := hm1.other u hu
    simp [Sys.append, Sys.setTx, List.getElem?_set, Ne.symm hu, this]
  have hover : Over t ((s2.append d (performed t mid)).setTx t ⟨d, performed t mid, .committed⟩) := by
    intro r hr
    simp [Sys.append, Sys.setTx, List.getElem?_set, hl2] at hr
    rw [← hr]; simp
  obtain ⟨ha1, ha2⟩ := remove hsim (by simpa [Sys.append, Sys.setTx] using hl2) after (.inl hover)
  have hin : inTx t (.exec e [] (performed t mid) (performed t mid).length) = false := by simp [inTx, Ctx.value]
  have hin' : inTx t (Op.commit ec cc none : Op W) = true := by simp [inTx, hc]
  refine ⟨seenByOthers t (runs init before).2 ++ seenByOthers t [(.begin e ctx false, (step s (.begin e ctx false)).2)] ++ seenByOthers t (runs s1 mid).2,
    (runs (s2'.append d (performed t mid)) (after.filter fun o => !inTx t o)).2, ?_, ?_, ?_, ?_⟩
  · have hmap : ∀ (s : Sys W) (ops : List (Op W)), (seenByOthers t (runs s ops).2).map (·.1) = ops.filter fun o => !inTx t o := by
      intro s ops
      induction ops generalizing s with
      | nil => rfl
      | cons o os ih =>
        have := ih (step s o).1
        unfold seenByOthers at this ⊢
        by_cases ho : inTx t o = true
        · simp [runs, List.filter_cons, ho, this]
        · simp [runs, List.filter_cons, ho, this]
    have hbg : inTx t (Op.begin e ctx false : Op W) = false := rfl
    have h1 : seenByOthers t [(Op.begin e ctx false, (step s (.begin e ctx false)).2)] = [(Op.begin e ctx false, (step s (.begin e ctx false)).2)] := rfl
    rw [List.map_append, List.map_append, hmap, hmap, h1, List.filter_append, List.filter_cons, hbg]
    simp
  · rw [runs_append, ← hs, runs, ← hs1]
    simp only
    rw [runs_append, ← hs2, runs, hstep]
    have hbg : inTx t (Op.begin e ctx false : Op W) = false := rfl
    simp only [seenByOthers, List.filter_append, List.filter_cons, List.filter_nil, hin', hbg, Bool.not_false, Bool.not_true, if_true]
    rw [show List.filter (fun x => !inTx t x.1) (runs ((s2.append d (performed t mid)).setTx t ⟨d, performed t mid, .committed⟩) after).2 = _ from ha2]
    simp
  · rw [runs_append, ← hs, runs, ← hs1]
    simp only
    rw [runs_append, ← hs2', runs, hstep']
    have h1 := inTx_filter_self t s1 mid
    have h2 := inTx_filter_self t (s2'.append d (performed t mid)) after
    unfold seenByOthers at h1 h2 hm2 ⊢
    simp only [List.filter_append, List.filter_cons, List.filter_nil, h1, h2, hin, Bool.not_false, if_true]
    rw [hm2]
    simp [inTx]
  · rw [runs_append, ← hs, runs, ← hs1]
    simp only
    rw [runs_append, ← hs2, runs, hstep]
    simp only
    rw [runs_append, ← hs, runs, ← hs1]
    simp only
    rw [runs_append, ← hs2', runs, hstep']
    exact ha1.log

/-- **C72** (reads) A query made in a transaction sees durable content followed by exactly what was performed in this transaction before. -/
theorem C72_reads_own_writes (before mid : List (Op W)) (e : Exe) (ctx : Ctx) {t : Nat} {ctx' : Ctx}
    (hb : (step (runs init before).1 (.begin e ctx false)).2 = .ctx ((e.key, t) :: ctx')) (hn : ∀ o ∈ mid, ends t o = false)
    {eq : Exe} {cq : Ctx} (hc : cq.value eq.key = some t) (n : Nat) :
    ∃ d, e.db = some d ∧ let s := (runs init (before ++ .begin e ctx false :: mid)).1
      (step s (.query eq cq n)).2 = .rows ((s.log d).take n ++ performed t mid) := by
  obtain ⟨d, he, hnew, _, _⟩ := begin_new hb
  have hcol := collects hnew hn
  refine ⟨d, he, ?_⟩
  simp only [runs_append, runs]
  rw [List.nil_append] at hcol
  generalize (runs (step (runs init before).1 (Op.begin e ctx false)).1 mid).1 = s at hcol
  simp [step, hc, hcol]

/-- **C72** (other executors) A transaction begun with one executor does not concern executors created in another second: they do the same with and without it in the context. -/
theorem C72_other_executors_partial {db db' : Option Nat} {now now' : Nat} (h : now' ≠ now) (s : Sys W) (t : Nat) (ctx : Ctx) :
    let e := newExecutor db now
    let e' := newExecutor db' now'
    (∀ ws n, step s (.exec e' ((e.key, t) :: ctx) ws n) = step s (.exec e' ctx ws n)) ∧
    (∀ n, step s (.query e' ((e.key, t) :: ctx) n) = step s (.query e' ctx n)) ∧
    (∀ f, step s (.commit e' ((e.key, t) :: ctx) f) = step s (.commit e' ctx f)) ∧
    (∀ f, step s (.rollback e' ((e.key, t) :: ctx) f) = step s (.rollback e' ctx f)) := by
  intro e e'
  have h : e'.key ≠ e.key := h
  have hv : Ctx.value ((e.key, t) :: ctx) e'.key = Ctx.value ctx e'.key := by
    simp only [Ctx.value, List.lookup_cons, beq_false_of_ne h]
  refine ⟨fun ws n => ?_, fun n => ?_, fun f => ?_, fun f => ?_⟩ <;> simp only [step, hv]

/-- **C72** (nested) Beginning inside a transaction begins a new one; calls made with the new context are made in the new transaction and not in the old one, calls made with the old context the other way round. -/
theorem C72_nested (before : List (Op W)) (e : Exe) (ctx : Ctx) {t t2 : Nat} {ctx' : Ctx}
    (hold : ctx.value e.key = some t) (hreal : t < (runs (W := W) init before).1.txs.length)
    (hb : (step (runs init before).1 (.begin e ctx false)).2 = .ctx ((e.key, t2) :: ctx')) :
    t2 ≠ t ∧ ctx' = ctx ∧ Ctx.value ((e.key, t2) :: ctx') e.key = some t2 := by
  obtain ⟨d, he, hnew, h2, h3⟩ := begin_new hb
  refine ⟨by omega, h3, by simp [Ctx.value, List.lookup_cons]⟩

/-- **C72** (errors) `Commit` and `RollBack` with a context carrying no transaction, or for the second time, return an error and change nothing; without a database everything but
queries and writes (which panic) returns `ErrInvalidDB`. -/
theorem C72_errors (s : Sys W) (e : Exe) (ctx : Ctx) :
    (e.db = none → ∀ f g k, step s (.begin e ctx f) = (s, .invalidDB) ∧ step s (.commit e ctx g) = (s, .invalidDB) ∧ step s (.rollback e ctx k) = (s, .invalidDB)) ∧
    (e.db.isSome → ctx.value e.key = none → ∀ g k, step s (.commit e ctx g) = (s, .noTransaction) ∧ step s (.rollback e ctx k) = (s, .noTransaction)) ∧
    (e.db.isSome → ∀ t, ctx.value e.key = some t → Over t s → ∀ g k, step s (.commit e ctx g) = (s, .dbErr) ∧ step s (.rollback e ctx k) = (s, .dbErr)) ∧
    (∀ t o, ends t o = true → Over t (step s o).1) := by
  refine ⟨fun h f g k => by simp [step, h], fun h h1 g k => ?_, fun h t h1 ho g k => ?_, fun t o => ends_over⟩
  · obtain ⟨d, hd⟩ := Option.isSome_iff_exists.1 h
    simp [step, hd, h1]
  · obtain ⟨d, hd⟩ := Option.isSome_iff_exists.1 h
    have key : ∀ b st out, endTx s t b st out = (s, .dbErr) := by
      intro b st out
      unfold endTx
      rcases hx : s.txs[t]? with _ | r
      · rfl
      · simp [ho r hx]
    cases g <;> simp [step, hd, h1, key]

/-! ## Concrete histories, and what is not true -/

/-- Two commands on database 0 and a write of an executor without transaction, interleaved: the first commits, the second rolls back. -/
def sample : List (Op Nat) :=
  let e : Exe := newExecutor (some 0) 100
  [.begin e [] false, .exec e [(100, 0)] [1, 2] 2, .begin e [] false, .exec e [(100, 1)] [3] 1, .exec e [] [9] 1, .query e [(100, 1)] 5, .exec e [(100, 0)] [4, 5] 1,
    .commit e [(100, 0)] none, .query e [] 9, .rollback e [(100, 1)] false, .query e [] 9]

example : (runs init sample).1.log 0 = [9, 1, 2, 4] ∧ (runs init sample).2.map (·.2) =
    [.ctx [(100, 0)], .ok, .ctx [(100, 1)], .ok, .ok, .rows [9, 3], .dbErr, .ok, .rows [9, 1, 2, 4], .ok, .rows [9, 1, 2, 4]] := by decide

/-- the hypotheses of C70 (for transaction 1) and C71 (for transaction 0) are met by `sample`. -/
example : (step (runs init (sample.take 2)).1 (.begin (newExecutor (some 0) 100) [] false)).2 = .ctx ((100, 1) :: []) ∧
    ((sample.drop 3).filter (commits 1) = []) ∧
    (step (runs init (W := Nat) []).1 (.begin (newExecutor (some 0) 100) [] false)).2 = .ctx ((100, 0) :: []) ∧ (∀ o ∈ (sample.drop 1).take 6, ends 0 o = false) ∧
    performed 0 ((sample.drop 1).take 6) = [1, 2, 4] := by decide

/-- **C70** needs the right context: a write of a command made with a context that is not the one handed to `Main` (for instance `repo.Save(context.Background())`, `engine.go:271-276`) takes effect at
once and stays although the command is rolled back. -/
theorem C70_other_context_survives : let e : Exe := newExecutor (some 0) 100
    (runs init [.begin e [] false, .exec e [(100, 0)] [1] 1, .exec e [] [2] 1, .rollback e [(100, 0)] false]).1.log 0 = [2] := by decide

/-- **C72** needs different seconds: of two executors of different databases created in the same second, the second one, given a context with a transaction of the first, reads and writes the
first database, and `Commit` of the second commits the transaction of the first. -/
theorem C72_same_second_mixes : let e1 : Exe := newExecutor (some 1) 100; let e2 : Exe := newExecutor (some 2) 100
    let h := runs init [.exec e1 [] [7] 1, .exec e2 [] [8] 1, .begin e1 [] false, .exec e2 [(100, 0)] [5] 1, .query e2 [(100, 0)] 9, .commit e2 [(100, 0)] none, .rollback e1 [(100, 0)] false]
    h.1.log 1 = [7, 5] ∧ h.1.log 2 = [8] ∧ h.2.map (·.2) = [.ok, .ok, .ctx [(100, 0)], .ok, .rows [7, 5], .ok, .dbErr] := by decide

/-- **C72** nested transactions are independent, not part of the outer one: what a nested command committed stays when the outer command is rolled back, and does not see what the outer one wrote. -/
theorem C72_nested_survives : let e : Exe := newExecutor (some 0) 100
    let h := runs init [.begin e [] false, .exec e [(100, 0)] [1] 1, .begin e [(100, 0)] false, .query e [(100, 1), (100, 0)] 9, .exec e [(100, 1), (100, 0)] [2] 1,
      .commit e [(100, 1), (100, 0)] none, .rollback e [(100, 0)] false]
    h.1.log 0 = [2] ∧ h.2.map (·.2) = [.ctx [(100, 0)], .ok, .ctx [(100, 1), (100, 0)], .rows [], .ok, .ok, .ok] := by decide

end Ddd.Tx
