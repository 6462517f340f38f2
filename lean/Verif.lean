import Verif.Prop.C01
import Verif.Prop.C02
import Verif.Prop.C03
import Verif.Prop.C04
import Verif.Prop.C05
import Verif.Prop.C06
import Verif.Prop.C07
import Verif.Prop.C08
import Verif.Prop.C08Pipeline
import Verif.Prop.C09
import Verif.Prop.C09Star
import Verif.Prop.C10
import Verif.Prop.C100
import Verif.Prop.C101
import Verif.Prop.C102
import Verif.Prop.C103
import Verif.Prop.C104
import Verif.Prop.C105
import Verif.Prop.C106
import Verif.Prop.C11
import Verif.Prop.C12
import Verif.Prop.C13
import Verif.Prop.C14
import Verif.Prop.C15
import Verif.Prop.C15Near
import Verif.Prop.C16
import Verif.Prop.C17
import Verif.Prop.C18
import Verif.Prop.C19
import Verif.Prop.C20
import Verif.Prop.C21
import Verif.Prop.C22
import Verif.Prop.C23
import Verif.Prop.C24
import Verif.Prop.C25
import Verif.Prop.C26
import Verif.Prop.C27
import Verif.Prop.C28
import Verif.Prop.C29
import Verif.Prop.C30
import Verif.Prop.C31
import Verif.Prop.C32
import Verif.Prop.C33
import Verif.Prop.C34
import Verif.Prop.C35
import Verif.Prop.C36
import Verif.Prop.C37
import Verif.Prop.C38
import Verif.Prop.C39
import Verif.Prop.C39Reads
import Verif.Prop.C40
import Verif.Prop.C41
import Verif.Prop.C42
import Verif.Prop.C43
import Verif.Prop.C44
import Verif.Prop.C45
import Verif.Prop.C46
import Verif.Prop.C47
import Verif.Prop.C48
import Verif.Prop.C49
import Verif.Prop.C50
import Verif.Prop.C51
import Verif.Prop.C52
import Verif.Prop.C53
import Verif.Prop.C54
import Verif.Prop.C55
import Verif.Prop.C56
import Verif.Prop.C57
import Verif.Prop.C58
import Verif.Prop.C58Tree
import Verif.Prop.C59
import Verif.Prop.C60
import Verif.Prop.C61
import Verif.Prop.C62
import Verif.Prop.C63
import Verif.Prop.C64
import Verif.Prop.C65
import Verif.Prop.C66
import Verif.Prop.C67
import Verif.Prop.C68
import Verif.Prop.C69
import Verif.Prop.C70
import Verif.Prop.C71
import Verif.Prop.C72
import Verif.Prop.C72More
import Verif.Prop.C73
import Verif.Prop.C74
import Verif.Prop.C74Flux
import Verif.Prop.C75
import Verif.Prop.C75More
import Verif.Prop.C76
import Verif.Prop.C76More
import Verif.Prop.C77
import Verif.Prop.C78
import Verif.Prop.C78More
import Verif.Prop.C79
import Verif.Prop.C79More
import Verif.Prop.C80
import Verif.Prop.C81
import Verif.Prop.C82
import Verif.Prop.C83
import Verif.Prop.C84
import Verif.Prop.C85
import Verif.Prop.C86
import Verif.Prop.C87
import Verif.Prop.C88
import Verif.Prop.C89
import Verif.Prop.C90
import Verif.Prop.C91
import Verif.Prop.C92
import Verif.Prop.C93
import Verif.Prop.C94
import Verif.Prop.C95
import Verif.Prop.C96
import Verif.Prop.C97
import Verif.Prop.C98
import Verif.Prop.C99
import Verif.Audit
