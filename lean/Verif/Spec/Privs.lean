import Verif.Model.Privs

/-!
# What it means to run as a user
-/

namespace Verif.Privs

/-- The process of root: all ids of the user are 0 and nothing is forbidden. Its groups may be any. -/
def Root (c : Cred) : Prop :=
  c.ruid = 0 ∧ c.euid = 0 ∧ c.suid = 0 ∧ c.permitted = .all ∧ c.effective = .all ∧ c.keep = false

instance (c : Cred) : Decidable (Root c) := inferInstanceAs (Decidable (_ ∧ _))

/-- All three ids of the user are this one. -/
def UserIs (c : Cred) (u : Nat) : Prop := c.ruid = u ∧ c.euid = u ∧ c.suid = u

instance (c : Cred) (u : Nat) : Decidable (UserIs c u) := inferInstanceAs (Decidable (_ ∧ _))

/-- All three ids of the group are this one. -/
def GroupIs (c : Cred) (g : Nat) : Prop := c.rgid = g ∧ c.egid = g ∧ c.sgid = g

instance (c : Cred) (g : Nat) : Decidable (GroupIs c g) := inferInstanceAs (Decidable (_ ∧ _))

/-- No capability is left. -/
def Powerless (c : Cred) : Prop := c.permitted = .none ∧ c.effective = .none

instance (c : Cred) : Decidable (Powerless c) := inferInstanceAs (Decidable (_ ∧ _))

/-- The process runs as this user with this group, in no groups but that and those the user is a member of,
and with no power beside. -/
def RunsAs (s : Site) (c : Cred) (name : Str) (u g : Nat) : Prop :=
  UserIs c u ∧ GroupIs c g ∧ Powerless c ∧ ∀ x, x ∈ c.groups ↔ x = g ∨ x ∈ s.memberOf name

/-- Nothing of the identity differs. -/
def SameIds (c d : Cred) : Prop :=
  d.ruid = c.ruid ∧ d.euid = c.euid ∧ d.suid = c.suid ∧ d.rgid = c.rgid ∧ d.sgid = c.sgid
    ∧ (d.egid = c.rgid ∨ d.egid = c.sgid ∨ d.egid = c.egid) ∧ d.groups = c.groups

end Verif.Privs
