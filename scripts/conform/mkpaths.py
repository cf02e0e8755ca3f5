"""Writes lean/Verif/Conform/{Concat,Blocks,Modules,Queries}.lean from the tests in /repo/tests/unit."""
import os,subprocess
here=os.path.dirname(os.path.abspath(__file__))
groups={'Concat':['ConcatTests.cpp'],'Blocks':['ConditionalTests.cpp','LoopTests.cpp','NonblockingAssignmentTests.cpp','SequentialStateTests.cpp','MiscTests.cpp','BugTests.cpp','DatatypeTests.cpp','ConstantDriverTests.cpp'],
'Modules':['InstanceTests.cpp','PortTests.cpp','BlackBoxTests.cpp','ParallelTests.cpp'],
'Queries':['CombFanTests.cpp','CombLoopTests.cpp','DriverTests.cpp','NetlistTests.cpp','PathTests.cpp','NetlistDotTests.cpp','SerializerTests.cpp']}
doc={'Concat':'bit-aligned assignments and connections','Blocks':'procedural blocks, data types and constants','Modules':'ports, instances and black boxes','Queries':'queries on netlists'}
for g,fs in groups.items():
    o=subprocess.run(['python3',here+'/paths.py','thm']+fs,capture_output=True,text=True).stdout
    L=[]
    for l in o.split('\n'):
        ind=len(l)-len(l.lstrip())
        while len(l)>118:
            k=l.rfind(', ',0,116)
            if k<=ind+8: break
            L.append(l[:k+1]); l=' '*(ind+4)+l[k+2:]
        L.append(l)
    o='\n'.join(L).strip()
    h='''import Verif.Conform.Base

/-!
The model on designs of the project's unit tests: %s. Each design is that of a test under
`tests/unit`, written out by a script from the SystemVerilog text of the test, and the checks are those of
the test. These are tests of the model, not proofs about the code.
-/
namespace Verif.Conform.%s
open Verif.Model

'''%(doc[g],g)
    open(here+'/../../lean/Verif/Conform/%s.lean'%g,'w').write(h+o+'\n\nend Verif.Conform.%s\n'%g)
