import Verif.Opcode.Names
import Verif.Opcode.Values
