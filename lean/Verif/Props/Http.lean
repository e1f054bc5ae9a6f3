import Verif.Model.Http
set_option linter.unusedVariables false
set_option linter.unusedSimpArgs false
/-!
# C132: requests to the HTTP service of the example
-/
namespace Ddd.Http
open Example

/-! ## Specification -/

/-- the actions of the service and the name each goes by -/
def Named (s : String) (m : Method) : Prop :=
  (s = "CreateOrder" ∧ m = .createOrder) ∨ (s = "UpdateOrder" ∧ m = .updateOrder) ∨ (s = "DeleteOrder" ∧ m = .deleteOrder) ∨ (s = "GetOrder" ∧ m = .getOrder) ∨
  (s = "GetOrderList" ∧ m = .getOrderList) ∨ (s = "AddSaleItem" ∧ m = .addSaleItem) ∨ (s = "AddCoupon" ∧ m = .addCoupon)

/-- the HTTP request asks for the call `c`: the action is the name of its method and the body decodes to it -/
def Asks (env : Env) (r : HttpReq) (c : Call) : Prop := ∃ m b, Named r.action m ∧ r.body = some b ∧ env.decode m b = some c

/-- the command that a call stands for; none for queries and for calls with missing items or coupons -/
inductive Commands : Call → Cmd → Prop
  | create (u is cs) : Commands (.createOrder u (is.map some) (cs.map some)) (.create u is cs)
  | update (id r) : Commands (.updateOrder id r) (.update id r)
  | delete (id) : Commands (.deleteOrder id) (.delete id)
  | addItem (id i) : Commands (.addSaleItem id (some i)) (.addItem id i)
  | addCoupon (id c) : Commands (.addCoupon id (some c)) (.addCoupon id c)

/-- `rep` is the right response to `c`, which takes the tables from `db` to `d` -/
inductive Does (env : Env) (ids : NewIDs) : Call → Tables → Tables → Reply → Prop
  | command {c cmd db d} : Commands c cmd → cmd.run env.R ids db = some d → Does env ids c db d (match cmd with | .create .. => .created ids.order | _ => .empty)
  | order {id db o} : queryOrder db id = some o → Does env ids (.getOrder id) db db (.order o)
  | list {r db l} : env.listing db r = some l → Does env ids (.getOrderList r) db db (.orders l)

/-- the tables after the calls that were answered with 200, each done once and in that order, and nothing else -/
inductive Served (env : Env) : List ((Fate × HttpReq) × Answer) → Tables → Tables → Prop
  | nil (db) : Served env [] db db
  | done {f r c rep s db d e l} : Asks env r c → Does env f.ids c db d rep → s = (env.marshal rep).getD "" → Served env l d e → Served env (((f, r), .status 200 s) :: l) db e
  | other {f r a db e l} : (∀ s, a ≠ .status 200 s) → Served env l db e → Served env (((f, r), a) :: l) db e

/-! ## Lemmas -/

theorem named_iff (s : String) (m : Method) : Named s m ↔ methodByName s = some m := by
  constructor
  · rintro (⟨rfl, rfl⟩ | ⟨rfl, rfl⟩ | ⟨rfl, rfl⟩ | ⟨rfl, rfl⟩ | ⟨rfl, rfl⟩ | ⟨rfl, rfl⟩ | ⟨rfl, rfl⟩) <;> rfl
  · intro h
    unfold methodByName at h
    unfold Named
    split at h <;> simp_all

theorem all_some {A : Type} [BEq A] [LawfulBEq A] : ∀ {l : List (Option A)}, l.contains none = false → l = (l.filterMap id).map some
  | [], _ => rfl
  | none :: l, h => by simp at h
  | some a :: l, h => by
    have h' : l.contains none = false := by
      rw [List.contains_cons] at h
      exact (Bool.or_eq_false_iff.1 h).2
    simp only [List.filterMap_cons, id, List.map_cons]
    rw [← all_some h']

theorem createMain_ended {R : Ruler} {ids : NewIDs} {db d : Tables} {u : String} {is : List (Option ItemDTO)} {cs : List (Option CouponDTO)} (h : createMain R ids db u is cs = .ended (some d)) :
    ∃ is' cs', is = is'.map some ∧ cs = cs'.map some ∧ (Cmd.create u is' cs').run R ids db = some d := by
  unfold createMain at h
  split at h
  · cases h
  · rename_i hi
    split at h
    · split at h <;> simp at h
    · rename_i hc
      simp only [Main.ended.injEq] at h
      exact ⟨_, _, all_some (by simpa using hi), all_some (by simpa using hc), h⟩

theorem engineRun_done {fault : Fault} {db d : Tables} {main : Main} {ok rep : Reply} (h : engineRun fault db main ok = (.done rep, d)) : rep = ok ∧ main = .ended (some d) := by
  unfold engineRun at h
  split at h <;> simp only [Prod.mk.injEq, reduceCtorEq, false_and, Outcome.done.injEq] at h
  obtain ⟨rfl, rfl⟩ := h
  exact ⟨rfl, rfl⟩

theorem engineRun_kept {fault : Fault} {db d : Tables} {main : Main} {ok : Reply} {o : Outcome} (h : engineRun fault db main ok = (o, d)) (ho : ∀ r, o ≠ .done r) (hf : fault ≠ .after) : d = db := by
  unfold engineRun at h
  split at h <;> simp only [Prod.mk.injEq] at h
  · exact h.2.symm
  · exact h.2.symm
  · exact h.2.symm
  · exact absurd h.1.symm (ho _)
  · exact absurd rfl hf

theorem queryRun_done {fault : Fault} {db d : Tables} {r : Option Reply} {rep : Reply} (h : queryRun fault db r = (.done rep, d)) : r = some rep ∧ d = db := by
  unfold queryRun at h
  split at h
  · simp only [Prod.mk.injEq, Outcome.done.injEq] at h
    exact ⟨by rw [h.1], h.2.symm⟩
  · simp only [Prod.mk.injEq, reduceCtorEq, false_and] at h

theorem queryRun_kept {fault : Fault} {db d : Tables} {r : Option Reply} {o : Outcome} (h : queryRun fault db r = (o, d)) : d = db := by
  unfold queryRun at h
  split at h <;> exact (Prod.mk.injEq .. ▸ h).2.symm

theorem call_does {env : Env} {f : Fate} {db d : Tables} {c : Call} {rep : Reply} (h : call env f db c = (.done rep, d)) : Does env f.ids c db d rep := by
  cases c with
  | createOrder u is cs =>
    obtain ⟨rfl, hm⟩ := engineRun_done h
    obtain ⟨is', cs', rfl, rfl, hr⟩ := createMain_ended hm
    exact .command (.create u is' cs') hr
  | updateOrder id r =>
    obtain ⟨rfl, hm⟩ := engineRun_done h
    simp only [Main.ended.injEq] at hm
    exact .command (.update id r) hm
  | deleteOrder id =>
    obtain ⟨rfl, hm⟩ := engineRun_done h
    simp only [Main.ended.injEq] at hm
    exact .command (.delete id) hm
  | getOrder id =>
    obtain ⟨hr, rfl⟩ := queryRun_done h
    obtain ⟨o, ho, rfl⟩ := Option.map_eq_some_iff.1 hr
    exact .order ho
  | getOrderList r =>
    obtain ⟨hr, rfl⟩ := queryRun_done h
    obtain ⟨o, ho, rfl⟩ := Option.map_eq_some_iff.1 hr
    exact .list ho
  | addSaleItem id i =>
    obtain ⟨rfl, hm⟩ := engineRun_done h
    cases i with
    | none => unfold addItemMain at hm; dsimp only at hm; split at hm <;> simp at hm
    | some i =>
      simp only [addItemMain, Main.ended.injEq] at hm
      exact .command (.addItem id i) hm
  | addCoupon id k =>
    obtain ⟨rfl, hm⟩ := engineRun_done h
    cases k with
    | none => unfold addCouponMain at hm; dsimp only at hm; split at hm <;> simp at hm
    | some k =>
      simp only [addCouponMain, Main.ended.injEq] at hm
      exact .command (.addCoupon id k) hm

theorem call_kept {env : Env} {f : Fate} {db d : Tables} {c : Call} {o : Outcome} (h : call env f db c = (o, d)) (ho : ∀ r, o ≠ .done r) (hf : f.fault ≠ .after) : d = db := by
  cases c <;> first | exact engineRun_kept h ho hf | exact queryRun_kept h

/-- what is done without a fault is answered with 200 -/
theorem does_call {env : Env} {f : Fate} {db d : Tables} {c : Call} {rep : Reply} (hf : f.fault = .none) (h : Does env f.ids c db d rep) : call env f db c = (.done rep, d) := by
  have hn1 : ∀ l : List ItemDTO, (l.map some).contains none = false := by intro l; induction l <;> simp_all
  have hn2 : ∀ l : List CouponDTO, (l.map some).contains none = false := by intro l; induction l <;> simp_all
  have hf1 : ∀ l : List ItemDTO, (l.map some).filterMap id = l := by intro l; simp [List.filterMap_map]
  have hf2 : ∀ l : List CouponDTO, (l.map some).filterMap id = l := by intro l; simp [List.filterMap_map]
  cases h with
  | command hc hr =>
    cases hc <;> simp only [call, createMain, addItemMain, addCouponMain, engineRun, hf, hn1, hn2, hf1, hf2, Bool.false_eq_true, if_false, hr]
  | order ho => simp only [call, queryRun, hf, ho, Option.map_some]
  | list ho => simp only [call, queryRun, hf, ho, Option.map_some]

theorem asks_handle {env : Env} {f : Fate} {r : HttpReq} {db : Tables} {c : Call} (h : Asks env r c) : handle env f r db =
    match call env f db c with | (.panicked, d) => (.cut, d) | (.failed, d) => (.status 500 "server error\n", d) | (.done rep, d) => (.status 200 ((env.marshal rep).getD ""), d) := by
  obtain ⟨m, b, hn, hb, hd⟩ := h
  unfold handle
  rw [(named_iff _ _).1 hn]
  dsimp only
  rw [hb]
  dsimp only
  rw [hd]
  rfl

open Classical in
theorem not_asks_handle {env : Env} {f : Fate} {r : HttpReq} {db : Tables} (h : ∀ c, ¬ Asks env r c) :
    handle env f r db = (if ∃ m, Named r.action m then .status 400 "body invalid\n" else .status 404 "404 page not found\n", db) := by
  unfold handle
  cases hm : methodByName r.action with
  | none =>
    rw [if_neg]
    rintro ⟨m, hn⟩
    rw [(named_iff _ _).1 hn] at hm
    cases hm
  | some m =>
    have hn := (named_iff _ _).2 hm
    rw [if_pos ⟨m, hn⟩]
    cases hb : r.body with
    | none => rfl
    | some b =>
      dsimp only
      cases hd : env.decode m b with
      | none => rfl
      | some c => exact absurd ⟨m, b, hn, hb, hd⟩ (h c)

/-! ## Theorems -/

/-- **C132** An answer with 200 is given exactly to a request that asks for a call which was done, and it carries the response (if it can be written as JSON). -/
theorem C132_ok_means_done (env : Env) (f : Fate) (r : HttpReq) (db : Tables) (s : String) (h : (handle env f r db).1 = .status 200 s) :
    ∃ c rep, Asks env r c ∧ Does env f.ids c db (handle env f r db).2 rep ∧ s = (env.marshal rep).getD "" := by
  by_cases ha : ∃ c, Asks env r c
  · obtain ⟨c, ha⟩ := ha
    rw [asks_handle ha] at h ⊢
    cases hc : call env f db c with
    | mk o d =>
      rw [hc] at h
      cases o with
      | panicked => cases h
      | failed => simp at h
      | done rep =>
        simp only [Answer.status.injEq, true_and] at h
        exact ⟨c, rep, ha, call_does hc, h.symm⟩
  · rw [not_asks_handle (fun c hc => ha ⟨c, hc⟩)] at h
    dsimp only at h
    split at h <;> simp at h

/-- **C132** A call that can be done, asked for without a fault outside, is answered with 200. -/
theorem C132_done_is_ok (env : Env) (f : Fate) (r : HttpReq) (db d : Tables) (c : Call) (rep : Reply) (ha : Asks env r c) (hd : Does env f.ids c db d rep) (hf : f.fault = .none) :
    handle env f r db = (.status 200 ((env.marshal rep).getD ""), d) := by
  rw [asks_handle ha, does_call hf hd]

/-- **C132** A request is answered with 404 exactly if its action is not one of the seven, with 400 exactly if it is and the body is not a request for it; in both cases nothing is done. -/
theorem C132_refused (env : Env) (f : Fate) (r : HttpReq) (db : Tables) :
    ((∃ s, (handle env f r db).1 = .status 404 s) ↔ ∀ m, ¬ Named r.action m) ∧
    ((∃ s, (handle env f r db).1 = .status 400 s) ↔ (∃ m, Named r.action m) ∧ ∀ c, ¬ Asks env r c) ∧
    ((∀ c, ¬ Asks env r c) → (handle env f r db).2 = db) := by
  by_cases ha : ∃ c, Asks env r c
  · obtain ⟨c, ha⟩ := ha
    have hno : ∀ n, (n = 404 ∨ n = 400) → ¬ ∃ s, (handle env f r db).1 = .status n s := by
      rintro n hn ⟨s, hs⟩
      rw [asks_handle ha] at hs
      cases hc : call env f db c with
      | mk o d => rw [hc] at hs; rcases hn with rfl | rfl <;> cases o <;> simp at hs
    refine ⟨⟨fun h => absurd h (hno 404 (.inl rfl)), fun h => ?_⟩, ⟨fun h => absurd h (hno 400 (.inr rfl)), fun h => absurd ha (h.2 c)⟩, fun h => absurd ha (h c)⟩
    obtain ⟨m, b, hn, _⟩ := ha
    exact absurd hn (h m)
  · have ha' : ∀ c, ¬ Asks env r c := fun c hc => ha ⟨c, hc⟩
    rw [not_asks_handle ha']
    refine ⟨⟨?_, ?_⟩, ⟨?_, ?_⟩, fun _ => rfl⟩
    · rintro ⟨s, hs⟩ m hm
      dsimp only at hs
      rw [if_pos ⟨m, hm⟩] at hs
      simp at hs
    · intro h
      exact ⟨_, if_neg fun ⟨m, hm⟩ => h m hm⟩
    · rintro ⟨s, hs⟩
      refine ⟨?_, ha'⟩
      refine Classical.byContradiction fun hn => ?_
      dsimp only at hs
      rw [if_neg hn] at hs
      simp at hs
    · intro h
      exact ⟨_, if_pos h.1⟩

/-- **C132** However many requests are served: the tables at the end are those after the calls answered with 200, each done once, in order, and nothing else. Missing for the full property: an error after everything is
stored (`C132_failed_but_stored`). -/
theorem C132_history_partial (env : Env) : ∀ (rs : List (Fate × HttpReq)) (db : Tables), (∀ x ∈ rs, x.1.fault ≠ .after) →
    (serve env rs db).1.length = rs.length ∧ Served env (rs.zip (serve env rs db).1) db (serve env rs db).2
  | [], db, _ => ⟨rfl, .nil db⟩
  | (f, r) :: rs, db, h => by
    obtain ⟨ih1, ih2⟩ := C132_history_partial env rs (handle env f r db).2 fun x hx => h x (List.mem_cons_of_mem _ hx)
    refine ⟨by simp only [serve, List.length_cons, ih1], ?_⟩
    simp only [serve, List.zip_cons_cons]
    by_cases hok : ∃ s, (handle env f r db).1 = .status 200 s
    · obtain ⟨s, hs⟩ := hok
      obtain ⟨c, rep, ha, hd, hm⟩ := C132_ok_means_done env f r db s hs
      rw [hs]
      exact .done ha hd hm ih2
    · have hk : (handle env f r db).2 = db := by
        by_cases ha : ∃ c, Asks env r c
        · obtain ⟨c, ha⟩ := ha
          rw [asks_handle ha] at hok ⊢
          cases hc : call env f db c with
          | mk o d =>
            rw [hc] at hok
            have hf := h (f, r) List.mem_cons_self
            cases o with
            | panicked => exact call_kept hc (by intro r; simp) hf
            | failed => exact call_kept hc (by intro r; simp) hf
            | done rep => exact absurd ⟨_, rfl⟩ hok
        · rw [not_asks_handle fun c hc => ha ⟨c, hc⟩]
      refine .other (fun s hs => hok ⟨s, hs⟩) ?_
      rw [hk] at ih2 ⊢
      exact ih2

/-- the call asked for is unique -/
theorem asks_unique {env : Env} {r : HttpReq} {c c' : Call} (h : Asks env r c) (h' : Asks env r c') : c = c' := by
  obtain ⟨m, b, hn, hb, hd⟩ := h
  obtain ⟨m', b', hn', hb', hd'⟩ := h'
  have hm : m = m' := Option.some.inj (((named_iff _ _).1 hn).symm.trans ((named_iff _ _).1 hn'))
  subst hm
  have hbb : b = b' := Option.some.inj (hb.symm.trans hb')
  subst hbb
  exact Option.some.inj (hd.symm.trans hd')

/-- **C132** A client that repeats a request until the answer is 200 has it done exactly once (again unless there is an error after everything is stored). -/
theorem C132_retry_partial (env : Env) (r : HttpReq) (c : Call) (ha : Asks env r c) (s : String) : ∀ (fs : List Fate) (as : List Answer) (db : Tables), (∀ f ∈ fs, f.fault ≠ .after) →
    (serve env (fs.map fun f => (f, r)) db).1 = as ++ [.status 200 s] → (∀ a ∈ as, ∀ s, a ≠ .status 200 s) →
    ∃ f ∈ fs, ∃ rep, Does env f.ids c db (serve env (fs.map fun f => (f, r)) db).2 rep ∧ s = (env.marshal rep).getD ""
  | [], as, db, _, h, _ => by simp [serve] at h
  | f :: fs, as, db, hf, h, hn => by
    have one := C132_history_partial env [(f, r)] db (by simpa using hf f List.mem_cons_self)
    simp only [List.map_cons, serve] at h ⊢
    cases as with
    | nil =>
      simp only [List.nil_append, List.cons.injEq] at h
      have hfs : fs = [] := by
        cases fs with
        | nil => rfl
        | cons g fs => simp [serve] at h
      subst hfs
      obtain ⟨c', rep, hc', hd, hs⟩ := C132_ok_means_done env f r db s h.1
      rw [asks_unique ha hc']
      exact ⟨f, List.mem_cons_self, rep, hd, hs⟩
    | cons a as =>
      simp only [List.cons_append, List.cons.injEq] at h
      have hk : (handle env f r db).2 = db := by
        have h1 := one.2
        have h2 := hn a List.mem_cons_self
        rw [← h.1] at h2
        simp only [serve, List.zip_cons_cons, List.zip_nil_right] at h1
        generalize handle env f r db = x at h1 h2
        obtain ⟨a0, d0⟩ := x
        dsimp only at h1 h2
        cases h1 with
        | done _ _ _ _ => exact absurd rfl (h2 _)
        | other _ hs => cases hs; rfl
      rw [hk] at h ⊢
      obtain ⟨g, hg, rep, hd, hs⟩ := C132_retry_partial env r c ha s fs as db (fun g hg => hf g (List.mem_cons_of_mem _ hg)) h.2 fun a ha => hn a (List.mem_cons_of_mem _ ha)
      exact ⟨g, List.mem_cons_of_mem _ hg, rep, hd, hs⟩

/-! ## Concrete cases and what fails -/

namespace Demo
/-- bodies of the demo -/
def decode : Method → String → Option Call
  | .createOrder, "two" => some (.createOrder "u" [some ⟨"a", "A", 30#64, 2#32⟩, some ⟨"b", "B", 5#64, 3#32⟩] [some ⟨"k", "r", 7#64⟩])
  | .createOrder, "null item" => some (.createOrder "u" [some ⟨"a", "A", 30#64, 2#32⟩, none] [])
  | .deleteOrder, "o1" => some (.deleteOrder "o1")
  | .deleteOrder, "{}" => some (.deleteOrder "")
  | .addSaleItem, "no item" => some (.addSaleItem "o1" none)
  | .getOrder, "o1" => some (.getOrder "o1")
  | _, _ => none

def env : Env where
  R := ruler
  decode := decode
  typed := by
    intro m b c h
    unfold decode at h
    split at h <;> simp only [Option.some.injEq, reduceCtorEq] at h <;> subst h <;> rfl
  marshal := fun r => match r with
    | .created id => some ("created " ++ id)
    | .empty => some "{}"
    | .order o => some ("order of " ++ o.user)
    | .orders _ => some "orders"
  listing := fun _ _ => none

def ids : NewIDs := ⟨"o1", fun n => if n = 0 then "i0" else "i1", fun _ => "c0"⟩
def empty : Tables := ⟨[], [], []⟩
def one : Tables := ⟨[⟨"o1", "u", 68#64, "-"⟩], [], []⟩
end Demo

open Demo in
/-- the hypotheses of `C132_history_partial` are met: an order is created, a wrong action and a wrong body are refused, the order is read and deleted, and then it is not found -/
example : (serve env [(⟨ids, .none⟩, ⟨"POST", "CreateOrder", some "two"⟩), (⟨ids, .none⟩, ⟨"POST", "createOrder", some "two"⟩), (⟨ids, .none⟩, ⟨"POST", "AddCoupon", some "two"⟩),
      (⟨ids, .none⟩, ⟨"GET", "GetOrder", some "o1"⟩), (⟨ids, .before⟩, ⟨"POST", "DeleteOrder", some "o1"⟩), (⟨ids, .none⟩, ⟨"POST", "DeleteOrder", some "o1"⟩), (⟨ids, .none⟩, ⟨"GET", "GetOrder", some "o1"⟩)] Demo.empty).1 =
    [.status 200 "created o1", .status 404 "404 page not found\n", .status 400 "body invalid\n", .status 200 "order of u", .status 500 "server error\n", .status 200 "{}", .status 500 "server error\n"] := by decide +kernel

open Demo in
/-- the hypotheses of `C132_retry_partial` are met: two attempts to create an order fail, the third succeeds -/
example : (serve env ([⟨ids, .before⟩, ⟨ids, .before⟩, ⟨ids, .none⟩].map fun f => (f, ⟨"POST", "CreateOrder", some "two"⟩)) Demo.empty).1 =
    [.status 500 "server error\n", .status 500 "server error\n"] ++ [.status 200 "created o1"] := by decide +kernel

open Demo in
/-- **C132 is false in general**: if the commit reports an error although the database has stored the transaction, the answer is 500 and the order exists; the client that asks again gets a second one. -/
theorem C132_failed_but_stored : (handle env ⟨ids, .after⟩ ⟨"POST", "CreateOrder", some "two"⟩ Demo.empty).1 = .status 500 "server error\n" ∧
    (handle env ⟨ids, .after⟩ ⟨"POST", "CreateOrder", some "two"⟩ Demo.empty).2.orders = [⟨"o1", "u", 68#64, "-"⟩] := by decide +kernel

/-- **C132** The method of the HTTP request is ignored. -/
theorem C132_verb_ignored (env : Env) (f : Fate) (v a : String) (b : Option String) (db : Tables) : handle env f ⟨v, a, b⟩ db = handle env f ⟨"POST", a, b⟩ db := rfl

open Demo in
/-- a GET request deletes an order -/
theorem C132_get_deletes : handle env ⟨ids, .none⟩ ⟨"GET", "DeleteOrder", some "o1"⟩ one = (.status 200 "{}", ⟨[], [], []⟩) := by decide +kernel

/-- **C132 is false in general**: a request that lacks the item or the coupon, which is required, is not refused: the service panics if the order exists and the connection is closed without an answer. -/
theorem C132_no_answer (env : Env) (f : Fate) (r : HttpReq) (db : Tables) (id : String) (o : Order) (ho : Example.getOrder db id = some o) (hf : f.fault ≠ .before)
    (h : Asks env r (.addSaleItem id none) ∨ Asks env r (.addCoupon id none)) : handle env f r db = (.cut, db) := by
  have hc : ∀ ok, engineRun f.fault db .stop ok = (.panicked, db) := by
    intro ok
    unfold engineRun
    split <;> simp_all
  rcases h with h | h <;> rw [asks_handle h]
  · simp only [call, addItemMain, ho, Option.isSome_some, if_true, hc]
  · simp only [call, addCouponMain, ho, Option.isSome_some, if_true, hc]

open Demo in
/-- the hypotheses of `C132_no_answer` are met -/
example : Example.getOrder one "o1" = some ⟨"o1", "u", 68#64, "-", [], [], false⟩ ∧ Asks env ⟨"POST", "AddSaleItem", some "no item"⟩ (.addSaleItem "o1" none) :=
  ⟨by decide +kernel, .addSaleItem, "no item", by simp [Named], rfl, rfl⟩

/-- **C132 is false in general**: deleting an order that does not exist (for instance without giving its ID) is answered with 200. -/
theorem C132_delete_unknown (env : Env) (f : Fate) (r : HttpReq) (db : Tables) (id : String) (h : Asks env r (.deleteOrder id)) (hu : ∀ o ∈ db.orders, o.id ≠ id) (hf : f.fault = .none) :
    handle env f r db = (.status 200 ((env.marshal .empty).getD ""), db) := by
  have hd : db.orders.filter (fun r => r.id != id) = db.orders := by
    rw [List.filter_eq_self]
    intro o ho
    simpa using hu o ho
  exact C132_done_is_ok env f r db db (.deleteOrder id) .empty h (.command (cmd := .delete id) (.delete id) (by simp only [Cmd.run, hd])) hf

end Ddd.Http
