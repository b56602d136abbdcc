"""Reads the tests of the package transforms as text and prints one line per test: name, transform, settings, path, expected text, precision."""
import re,glob,sys
for f in sorted(glob.glob(sys.argv[1]+'/transforms/*_test.go')):
    s=re.sub(r'(?m)^\s*//.*$','',open(f).read())
    for m in re.finditer(r'func (Test\w+)\(.*?\n}\n',s,re.S):
        b=m.group(0)
        get=lambda n: re.findall(n+r' :?= (?:`([^`]*)`|"([^"]*)")',b)
        ps,ex=get('pathStr'),get('expectedStr')
        tr=re.findall(r'(\w+Transform)\{(.*?)\}',b,re.S)
        sv=re.findall(r'SvgString\(\w+, (\d)\)',b)
        if not (ps and ex and tr and sv): continue
        cfg=re.sub(r'SegmentOperators: .*?\(\),?','',re.sub(r'\s+',' ',tr[0][1]))
        cfg=';'.join(x.strip() for x in re.split(r',(?![^(]*\))',cfg) if x.strip())
        if m.group(1)=='TestPathReverse': cfg='reverse'
        print('\t'.join([m.group(1),tr[0][0],cfg,re.sub(r'\s+',' ',''.join(ps[-1])),''.join(ex[-1]),sv[0]]))
