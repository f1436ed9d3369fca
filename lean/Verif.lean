import Verif.Conv.Num
import Verif.Conv.Machine
import Verif.Conv.Model
import Verif.Conv.Spec
import Verif.Conv.IntLemmas
import Verif.Conv.RealLemmas
import Verif.Conv.CastLemmas
import Verif.Conv.X87Lemmas
import Verif.Arith.Machine
import Verif.Arith.Model
import Verif.Arith.Spec
import Verif.Arith.LoadLemmas
import Verif.Arith.StoreLemmas
import Verif.Arith.FieldLemmas
import Verif.Arith.OpLemmas
import Verif.Arith.Main
import Verif.Arith.ValueLemmas
import Verif.Props.C01
import Verif.Props.C02
import Verif.Props.C04
import Verif.Props.C05
import Verif.Props.C06
import Verif.Props.C07
import Verif.Props.C08
import Verif.Props.C09
import Verif.Props.C10
import Verif.Props.C11
import Verif.Props.C12
import Verif.Props.C14
import Verif.Props.C15
import Verif.Props.C16
import Verif.Props.C17
import Verif.Props.C20
import Verif.Props.C22
import Verif.Props.C24
import Verif.Props.C26
import Verif.Props.C28
import Verif.Props.C29
import Verif.Props.C31
import Verif.Props.C32
import Verif.Props.C33
import Verif.Props.C37
import Verif.Props.C38
import Verif.Props.C39
import Verif.Props.C40
import Verif.Props.C42
import Verif.Props.C45
import Verif.Props.C50
import Verif.Props.C55
import Verif.Props.C58
import Verif.Props.C82
import Verif.Props.C83
import Verif.Props.C84
import Verif.Props.C53
import Verif.Props.C54
import Verif.Props.C57
import Verif.Props.C86
import Verif.Props.C87
import Verif.Props.C88
import Verif.Props.C74
import Verif.Props.C80
import Verif.Props.C89
import Verif.Props.C90
import Verif.Props.C91
import Verif.Props.C92
import Verif.Props.C77
import Verif.Props.C72
import Verif.Props.C93
import Verif.Props.C94
import Verif.Props.C95
import Verif.Props.C96
import Verif.Props.C97
import Verif.Props.C98
import Verif.Props.C99
import Verif.Props.C100
import Verif.Props.C101
import Verif.Props.C102
import Verif.Props.C103
import Verif.Props.C104
import Verif.Props.C105
import Verif.Props.C106
import Verif.Props.C107
