import Verif.Model.LockSkew
/-!
# Vocabulary of C112
-/
namespace Ddd.Lock.Skew

/-- every clock differs from the true time by at most `d` -/
def Off (d : Nat) (cfg : Cfg) : Prop := ∀ l now c, cfg.reads l now c → c ≤ now + d ∧ now ≤ c + d

/-- every client's lease time is at least `m` -/
def AtLeast (m : Nat) (cfg : Cfg) : Prop := ∀ l, m ≤ cfg.ttl l

/-- client `l` holds key `k`, and its clock can now show a reading at which less than `m` has passed since its time stamp, with a margin of `g` -/
def Sure (cfg : Cfg) (m g : Nat) (s : State) (l k : Nat) : Prop := ∃ u c, s.pc l = .held k u ∧ cfg.reads l s.now c ∧ c + g < u + m

end Ddd.Lock.Skew
