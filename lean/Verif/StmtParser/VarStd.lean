import Verif.StmtParser.DesigStd
/-!
# Specification for C79: image control statements, allocate, deallocate, wait, associate, select type and rank

Forms of the standard without the specifiers that name a variable (`stat=`, `errmsg=`, `iomsg=`, `iostat=`), and
the beginnings of those that have one.
-/

namespace FLPR
namespace Spec
namespace Std
open Form

/-- R1164, without sync-stat-list. -/
def syncAll : Form := seqs [word Tag.KW_SYNC, word Tag.KW_ALL, opt (paren empty)]
/-- R1168, without sync-stat-list. -/
def syncMemory : Form := seqs [word Tag.KW_SYNC, word Tag.KW_MEMORY, opt (paren empty)]
/-- R1166, without sync-stat-list. -/
def syncImages : Form := seqs [word Tag.KW_SYNC, word Tag.KW_IMAGES, paren (oneOf [expr, star_])]
/-- R1169, without sync-stat-list. -/
def syncTeam : Form := seqs [word Tag.KW_SYNC, word Tag.KW_TEAM, paren expr]

/-- R933. -/
def allocateObject : Form := oneOf [structureComponent, name]
/-- R932, R934 to R938. -/
def allocation : Form :=
  seqs [allocateObject, opt (paren (list explicitShape)),
    opt (bracket (seqs [opt (seqs [list explicitShape, comma]), opt (seqs [expr, colon]), star_]))]
/-- R928, `mold=` and `source=`. -/
def allocFrom : Form := oneOf [seqs [word Tag.KW_MOLD, equals, expr], seqs [word Tag.KW_SOURCE, equals, expr]]
/-- R927, without `stat=` and `errmsg=`, given the part in front of the objects. -/
def allocateWith (front : Form) : Form :=
  seqs [word Tag.KW_ALLOCATE, paren (seqs [front, list allocation, opt (seqs [comma, list allocFrom])])]
def allocate : Form := allocateWith (opt (seqs [typeSpec, dcolon]))
/-- R941, without dealloc-opt-list. -/
def deallocate : Form := seqs [word Tag.KW_DEALLOCATE, paren (list allocateObject)]
/-- R1223, without `iomsg=` and `iostat=`. -/
def waitSpec : Form :=
  oneOf [seqs [word Tag.KW_UNIT, equals, expr], seqs [word Tag.KW_END, equals, int], seqs [word Tag.KW_EOR, equals, int],
    seqs [word Tag.KW_ERR, equals, int], seqs [word Tag.KW_ID, equals, expr], expr]
/-- R1222, without `iomsg=` and `iostat=`. -/
def wait : Form := seqs [word Tag.KW_WAIT, paren (list waitSpec)]

/-- R1103. -/
def associate : Form := seqs [label, word Tag.KW_ASSOCIATE, paren (list (seqs [name, arrow, expr]))]
/-- R1152 and R1148, given the part in front of the selector. -/
def selectWith (kind : Int) (front : Form) : Form :=
  seqs [label, word Tag.KW_SELECT, word kind, paren (seqs [front, expr])]
def selectType : Form := selectWith Tag.KW_TYPE (opt (seqs [name, arrow]))
def selectRank : Form := selectWith Tag.KW_RANK (opt (seqs [name, arrow]))

/-- The statements that need no variable. -/
def withoutVariables : List (Int × Form) :=
  [(Tag.SG_SYNC_ALL_STMT, syncAll), (Tag.SG_SYNC_MEMORY_STMT, syncMemory), (Tag.SG_SYNC_IMAGES_STMT, syncImages),
   (Tag.SG_SYNC_TEAM_STMT, syncTeam), (Tag.SG_DEALLOCATE_STMT, deallocate), (Tag.SG_WAIT_STMT, wait), (Tag.SG_ASSOCIATE_STMT, associate)]

/-- The statements that name a variable in any case: R1179, R1180, R1170, R1172, R1175. -/
def needVariables : List Int :=
  [Tag.SG_LOCK_STMT, Tag.SG_UNLOCK_STMT, Tag.SG_EVENT_POST_STMT, Tag.SG_EVENT_WAIT_STMT, Tag.SG_FORM_TEAM_STMT]

/-- Where a variable is named: the statement, what is in front of its parentheses, and what is between them in
front of the variable. -/
def beforeVariables : List (Int × Form × Form) :=
  [(Tag.SG_LOCK_STMT, word Tag.KW_LOCK, empty),
   (Tag.SG_UNLOCK_STMT, word Tag.KW_UNLOCK, empty),
   (Tag.SG_EVENT_POST_STMT, seqs [word Tag.KW_EVENT, word Tag.KW_POST], empty),
   (Tag.SG_EVENT_WAIT_STMT, seqs [word Tag.KW_EVENT, word Tag.KW_WAIT], empty),
   (Tag.SG_FORM_TEAM_STMT, seqs [word Tag.KW_FORM, word Tag.KW_TEAM], seqs [expr, comma]),
   (Tag.SG_SYNC_ALL_STMT, seqs [word Tag.KW_SYNC, word Tag.KW_ALL], seqs [word Tag.KW_STAT, equals]),
   (Tag.SG_SYNC_ALL_STMT, seqs [word Tag.KW_SYNC, word Tag.KW_ALL], seqs [word Tag.KW_ERRMSG, equals]),
   (Tag.SG_SYNC_MEMORY_STMT, seqs [word Tag.KW_SYNC, word Tag.KW_MEMORY], seqs [word Tag.KW_STAT, equals]),
   (Tag.SG_SYNC_MEMORY_STMT, seqs [word Tag.KW_SYNC, word Tag.KW_MEMORY], seqs [word Tag.KW_ERRMSG, equals]),
   (Tag.SG_SYNC_IMAGES_STMT, seqs [word Tag.KW_SYNC, word Tag.KW_IMAGES], seqs [oneOf [expr, star_], comma, word Tag.KW_STAT, equals]),
   (Tag.SG_SYNC_IMAGES_STMT, seqs [word Tag.KW_SYNC, word Tag.KW_IMAGES], seqs [oneOf [expr, star_], comma, word Tag.KW_ERRMSG, equals]),
   (Tag.SG_SYNC_TEAM_STMT, seqs [word Tag.KW_SYNC, word Tag.KW_TEAM], seqs [expr, comma, word Tag.KW_STAT, equals]),
   (Tag.SG_SYNC_TEAM_STMT, seqs [word Tag.KW_SYNC, word Tag.KW_TEAM], seqs [expr, comma, word Tag.KW_ERRMSG, equals]),
   (Tag.SG_DEALLOCATE_STMT, word Tag.KW_DEALLOCATE, seqs [list allocateObject, comma, word Tag.KW_STAT, equals]),
   (Tag.SG_DEALLOCATE_STMT, word Tag.KW_DEALLOCATE, seqs [list allocateObject, comma, word Tag.KW_ERRMSG, equals]),
   (Tag.SG_WAIT_STMT, word Tag.KW_WAIT, seqs [word Tag.KW_IOMSG, equals]),
   (Tag.SG_WAIT_STMT, word Tag.KW_WAIT, seqs [word Tag.KW_IOSTAT, equals]),
   (Tag.SG_WAIT_STMT, word Tag.KW_WAIT, seqs [list waitSpec, comma, word Tag.KW_IOMSG, equals]),
   (Tag.SG_WAIT_STMT, word Tag.KW_WAIT, seqs [list waitSpec, comma, word Tag.KW_IOSTAT, equals])]

/-- The same of an allocate statement, given the part in front of the objects. -/
def allocateBefore (front : Form) : List Form :=
  [seqs [front, list allocation, comma, word Tag.KW_STAT, equals],
   seqs [front, list allocation, comma, word Tag.KW_ERRMSG, equals],
   seqs [front, list allocation, comma, list allocFrom, comma, word Tag.KW_STAT, equals],
   seqs [front, list allocation, comma, list allocFrom, comma, word Tag.KW_ERRMSG, equals]]

/-- Where an expression or a variable is missing at the end of the parentheses. -/
def missing : List (Int × Form × Form) :=
  [(Tag.SG_SELECT_TYPE_STMT, seqs [label, word Tag.KW_SELECT, word Tag.KW_TYPE], opt (seqs [name, arrow])),
   (Tag.SG_SELECT_RANK_STMT, seqs [label, word Tag.KW_SELECT, word Tag.KW_RANK], opt (seqs [name, arrow])),
   (Tag.SG_ASSOCIATE_STMT, seqs [label, word Tag.KW_ASSOCIATE], seqs [name, arrow]),
   (Tag.SG_ASSOCIATE_STMT, seqs [label, word Tag.KW_ASSOCIATE],
      seqs [list (seqs [name, arrow, expr]), comma, name, arrow])]

end Std

/-- The statement is `pre`, and behind it one pair of parentheses, in which there is `first` and then anything. -/
def Begins (pre first : Form) (ts : List Tok) : Prop :=
  ∃ p o g m c, ts = p ++ o :: (g ++ m ++ [c]) ∧ pre.Is p ∧ first.Is g ∧ o.token = Tag.TK_PARENL ∧ c.token = Tag.TK_PARENR ∧
    WellNested ((g ++ m).map (·.token))

end Spec
end FLPR
